import Verif.Embed.InitEnter

/-
The search loops of _EmbeddingInitialize.
-/
namespace Verif.Embed
open Verif Verif.Graph Verif.EGraph Verif.DFS Function

variable {s0 : PGraph} {rot : Nat → List Nat} {r : Rec} {order : List Nat} {stack : List Nat} {Bk : Nat → Prop}
  {cur fw kid : Nat → List Nat} {s : EGraph}

theorem order_length {N : Nat} {L : List Nat} (hnd : L.Nodup) (hr : ∀ u ∈ L, 1 ≤ u ∧ u ≤ N) : L.length ≤ N := by
  have hsub : L ⊆ List.range' 1 N := fun u hu => by rw [List.mem_range'_1]; have := hr u hu; omega
  have hle := (hnd.subperm hsub).length_le
  rwa [List.length_range'] at hle

theorem Srch.enter (hS : Start s0 rot) (h : Srch s0 rot r order stack Bk cur fw kid s) {stk} (D : DInv s0.g.N rot (hdOf s0) r order stk)
    {u p e : Nat} {ty' : Nat → Nat} (hu : 1 ≤ u ∧ u ≤ s0.g.N) (hn : u ∉ order)
    (hc : (p = 0 ∧ e = 0 ∧ ty' = r.ty) ∨ (p ∈ order ∧ e ∈ rot p ∧ hdOf s0 e = u ∧ ty' = treeTy r.ty e))
    {s1 : EGraph} (he : Enter s u p e (order.length + 1) s1) :
    ∃ kid', Srch s0 rot (r.visit u (order.length + 1) p ty') (u :: order) stack Bk cur fw kid' s1 := by
  have hst := hS.static
  have hlen : order.length + 1 ≤ s0.g.N := by
    have := order_length (N := s0.g.N) (L := u :: order) (List.nodup_cons.2 ⟨hn, D.nodup⟩) (by
      intro x hx
      rcases List.mem_cons.1 hx with rfl | hx
      · exact hu
      · exact D.range x hx)
    simpa using this
  have hi : ∀ x ∈ order, (r.visit u (order.length + 1) p ty').idx x = r.idx x := fun x hx =>
    update_of_ne (fun hh => hn (by rw [← hh]; exact hx)) _ _
  have hp : ∀ x ∈ order, (r.visit u (order.length + 1) p ty').par x = r.par x := fun x hx =>
    update_of_ne (fun hh => hn (by rw [← hh]; exact hx)) _ _
  have hiu : (r.visit u (order.length + 1) p ty').idx u = order.length + 1 := update_self _ _ _
  have hpu : (r.visit u (order.length + 1) p ty').par u = p := update_self _ _ _
  have hN := h.N
  have hR : ∀ x, x ≤ s0.g.N → x ≠ order.length + 1 + s.p.g.N := fun x hx => by omega
  have hVI : ∀ x, s1.p.VI x = { s.p.VI x with parent := if x = u then p else (s.p.VI x).parent, leastAncestor := if x = u then order.length + 1 else (s.p.VI x).leastAncestor, sortedDFSChildList := (s1.p.VI x).sortedDFSChildList } := he.VI
  have hKL : ∃ kid', Lists s1.kids (fun x => (s1.p.VI x).sortedDFSChildList) s0.g.N kid' ∧ s1.kids.N = 1 + s0.g.N ∧
      (∀ x c, c ∈ kid' x ↔ ∃ v ∈ u :: order, (r.visit u (order.length + 1) p ty').par v = x ∧ x ≠ 0 ∧ (r.visit u (order.length + 1) p ty').idx v = c) ∧
      ∀ x, (kid' x).Pairwise (· < ·) := by
    have hold : ∀ x c, (∃ v ∈ order, r.par v = x ∧ x ≠ 0 ∧ r.idx v = c) ↔
        (∃ v ∈ order, (r.visit u (order.length + 1) p ty').par v = x ∧ x ≠ 0 ∧ (r.visit u (order.length + 1) p ty').idx v = c) := by
      intro x c
      constructor
      · rintro ⟨v, v1, v2⟩; exact ⟨v, v1, by rw [hi v v1, hp v v1]; exact v2⟩
      · rintro ⟨v, v1, v2⟩; rw [hi v v1, hp v v1] at v2; exact ⟨v, v1, v2⟩
    rcases he.kids with ⟨e0, e1, e2⟩ | ⟨e0, e1, e2⟩
    · have hp0 : p = 0 := by
        rcases hc with ⟨c1, _⟩ | ⟨_, c2, _⟩
        · exact c1
        · have := (hS.inv.links.arc _ _ c2).1; omega
      refine ⟨kid, ?_, by rw [e1]; exact h.kN, ?_, h.kids⟩
      · rw [e1]; exact h.kl.congr rfl (fun z _ _ => e2 z) (fun _ _ _ => ⟨rfl, rfl⟩)
      · intro x c
        rw [h.inKid, hold]
        constructor
        · rintro ⟨v, v1, v2⟩; exact ⟨v, List.mem_cons_of_mem _ v1, v2⟩
        · rintro ⟨v, v1, v2⟩
          rcases List.mem_cons.1 v1 with rfl | v1
          · rw [hpu] at v2; omega
          · exact ⟨v, v1, v2⟩
    · have hpo : p ∈ order := by
        rcases hc with ⟨_, c1, _⟩ | ⟨c2, _⟩
        · exact absurd c1 e0
        · exact c2
      have hpr := D.range p hpo
      have hnew : ∀ x, order.length + 1 ∉ kid x := by
        intro x hx
        obtain ⟨v, v1, _, _, v4⟩ := (h.inKid x _).1 hx
        have := (D.idxR v v1).2
        omega
      obtain ⟨c', h', a1, a2, a3⟩ := h.kl.append (z := p) (x := order.length + 1) hpr.1 hpr.2 ⟨by omega, by rw [h.kN]; omega⟩ hnew
      rw [a1] at e1
      simp only [Option.some.injEq, Prod.mk.injEq] at e1
      refine ⟨update kid p (kid p ++ [order.length + 1]), ?_, by rw [← e1.1, a2]; exact h.kN, ?_, ?_⟩
      · rw [← e1.1]
        refine a3.congr rfl (fun z _ _ => ?_) (fun _ _ _ => ⟨rfl, rfl⟩)
        by_cases hz : z = p
        · subst hz; rw [update_self, e1.2]
        · rw [update_of_ne hz]; exact e2 z hz
      · intro x c
        have : c ∈ update kid p (kid p ++ [order.length + 1]) x ↔ c ∈ kid x ∨ (x = p ∧ c = order.length + 1) := by
          by_cases hx : x = p
          · subst hx; rw [update_self]; simp
          · rw [update_of_ne hx]; simp [hx]
        rw [this, h.inKid, hold]
        constructor
        · rintro (⟨v, v1, v2⟩ | ⟨rfl, rfl⟩)
          · exact ⟨v, List.mem_cons_of_mem _ v1, v2⟩
          · exact ⟨u, by simp, hpu, by omega, hiu⟩
        · rintro ⟨v, v1, v2⟩
          rcases List.mem_cons.1 v1 with rfl | v1
          · rw [hpu, hiu] at v2; exact .inr ⟨v2.1.symm, v2.2.2.symm⟩
          · exact .inl ⟨v, v1, v2⟩
      · intro x
        by_cases hx : x = p
        · subst hx; rw [update_self, List.pairwise_append]
          refine ⟨h.kids _, by simp, ?_⟩
          intro a ha b hb
          rw [List.mem_singleton] at hb
          subst hb
          obtain ⟨v, v1, _, _, v4⟩ := (h.inKid _ _).1 ha
          have := (D.idxR v v1).2
          omega
        · rw [update_of_ne hx]; exact h.kids x
  obtain ⟨kid', k1, k2, k3, k4⟩ := hKL
  refine ⟨kid', ?_⟩
  have hbko : ∀ f, Bk f → hdOf s0 f ∈ order ∧ hdOf s0 (twin f) ∈ order := by
    intro f hf
    obtain ⟨x, x1, x2, x3, _⟩ := h.bk f hf
    have : hdOf s0 (twin f) = x := hst.owner x f x1
    exact ⟨x3, this ▸ x2⟩
  constructor
  · rw [he.N]; exact h.N
  · rw [he.M]; exact h.M
  · rw [he.arcCap]; exact h.arcCap
  · rw [he.holes]; exact h.holes
  · rw [he.holesCap]; exact h.holesCap
  · rw [he.stackCap]; exact h.stackCap
  · rw [he.flags]; exact h.flags
  · rw [he.stack]; exact h.stack
  · intro f; rw [he.E]; exact h.nbr f
  · intro x hx
    by_cases q : x = u
    · subst q; rw [he.Vu, hiu]
    · rw [he.V x q (.inr (hR x hx)), h.idx x hx]
      exact (update_of_ne q _ _).symm
  · intro x x1 x2
    by_cases q : x = u
    · subst q; rw [he.Vu]
      simp only [List.mem_cons, true_or, iff_true]
      rw [Nat.or_mod_two_eq_one]; exact .inr rfl
    · rw [he.V x q (.inr (hR x x2)), h.vis x x1 x2, List.mem_cons]; simp [q]
  · intro x x1 x2
    rw [hVI]
    show (if x = u then p else _) = update r.par u p x
    by_cases q : x = u
    · subst q; rw [if_pos rfl, update_self]
    · rw [if_neg q, update_of_ne q]; exact h.par x x1 x2
  · refine h.links.congr he.N he.arcCap ?_ ?_
    · intro f b; show (s1.p.g.E f).link b = _; rw [he.E]; rfl
    · intro v b
      show (if v ≤ s1.p.g.N then s1.p.g.V v else {}).link b = (if v ≤ s.p.g.N then s.p.g.V v else {}).link b
      rw [he.N]
      by_cases hv : v ≤ s.p.g.N
      · rw [if_pos hv, if_pos hv]
        by_cases q : v = u
        · subst q; rw [he.Vu]; rfl
        · rw [he.V v q (.inr (hR v (by omega)))]
      · rw [if_neg hv, if_neg hv]
  · exact h.inCur
  · intro x hx; rw [List.mem_cons, not_or] at hx; exact h.cur0 x hx.2
  · refine h.fwl.congr ?_ ?_ ?_
    · show s1.p.g.eSize = _; unfold eSize; rw [he.arcCap]; rfl
    · intro z _ _; show (s1.p.VI z).fwdArcList = _; rw [hVI]; rfl
    · intro z y _; show (s1.p.g.E y).link false = _ ∧ (s1.p.g.E y).link true = _; rw [he.E]; exact ⟨rfl, rfl⟩
  · exact h.inFw
  · intro w
    refine List.Pairwise.imp_of_mem ?_ (h.fws w)
    intro a b ha hb hab
    have h1 := (hbko _ ((h.inFw w a).1 ha).2).2
    have h2 := (hbko _ ((h.inFw w b).1 hb).2).2
    rw [twin_twin] at h1 h2
    rw [hi _ h1, hi _ h2]; exact hab
  · exact k1
  · exact k2
  · exact k3
  · exact k4
  · intro x f hf
    rw [he.E]
    obtain ⟨t, t1, t2, t3, t4, t5, t6⟩ := h.ty x f hf
    rcases hc with ⟨c1, c2, c3⟩ | ⟨c1, c2, c3, c4⟩
    · rw [if_pos c2, Nat.or_zero]
      exact ⟨t, t1, t2, by show _ ↔ ty' f = 14; rw [c3]; exact t3, by show _ ↔ ty' f = 6; rw [c3]; exact t4, t5, t6⟩
    · have hea := (hS.inv.links.arc _ _ c2).1
      rw [if_neg (by omega)]
      have hte := hst.twins p e c2
      have ht0 : (f = e ∨ f = twin e) → t = 0 := by
        intro hfe
        have hnot : u ∉ order ∨ True := .inl hn
        have hb : ¬ Bk f ∧ ¬ Bk (twin f) := by
          have key : ∀ f, (f = e ∨ f = twin e) → ¬ Bk f := by
            intro f hfe hb
            have := hbko f hb
            rcases hfe with rfl | rfl
            · rw [c3] at this; exact hn this.1
            · rw [twin_twin, c3] at this; exact hn this.2
          refine ⟨key f hfe, key (twin f) ?_⟩
          rcases hfe with rfl | rfl
          · exact .inr rfl
          · exact .inl (twin_twin e)
        have hw : r.ty f = 0 := by
          refine D.white x f hf ?_
          rcases hfe with rfl | rfl
          · right; rw [c3]; exact hn
          · left; rw [hst.disj hf hte, c3]; exact hn
        rcases t2 with rfl | rfl | rfl | rfl | rfl
        · rfl
        · exact absurd (t5 rfl) hb.1
        · have := t4.1 rfl; omega
        · exact absurd (t6 rfl) hb.2
        · have := t3.1 rfl; omega
      show ∃ t, _ ∧ _ ∧ (_ ↔ ty' f = 14) ∧ (_ ↔ ty' f = 6) ∧ _
      rw [c4]
      by_cases q1 : f = e
      · subst q1
        have := ht0 (.inl rfl)
        subst this
        have hty : treeTy r.ty f f = 14 := by unfold treeTy; rw [update_of_ne (Ne.symm (twin_ne f)), update_self]
        rw [if_pos rfl, t1, Nat.or_zero, hty]
        exact ⟨14, rfl, by simp, by simp, by simp, by simp, by simp⟩
      · rw [if_neg q1]
        by_cases q2 : f = twin e
        · subst q2
          have := ht0 (.inr rfl)
          subst this
          have hty : treeTy r.ty e (twin e) = 6 := by unfold treeTy; rw [update_self]
          rw [if_pos rfl, t1, Nat.or_zero, hty]
          exact ⟨6, rfl, by simp, by simp, by simp, by simp, by simp⟩
        · rw [if_neg q2, Nat.or_zero]
          have hty : treeTy r.ty e f = r.ty f := by unfold treeTy; rw [update_of_ne q2, update_of_ne q1]
          rw [hty]
          exact ⟨t, t1, t2, t3, t4, t5, t6⟩
  · intro f hf
    rw [he.E, h.dead f hf]
    have : (if e = 0 then 0 else if f = e then 14 else if f = twin e then 6 else 0) = 0 := by
      rcases hc with ⟨_, c2, _⟩ | ⟨c1, c2, c3, c4⟩
      · rw [if_pos c2]
      · rw [if_neg (show ¬ f = e from fun hh => hf p (hh ▸ c2)), if_neg (show ¬ f = twin e from fun hh => hf _ (hh ▸ hst.twins p e c2))]
        simp
    rw [this]; rfl
  · intro f hf
    obtain ⟨x, x1, x2, x3, x4, x5⟩ := h.bk f hf
    exact ⟨x, x1, List.mem_cons_of_mem _ x2, List.mem_cons_of_mem _ x3, by rw [hi x x2, hi _ x3]; exact x4, by rw [hp x x2]; exact x5⟩
  · intro f x hf hx
    have hb := hbko f hf
    have hxo : x ∈ order := by
      have : hdOf s0 (twin f) = x := hst.owner x f hx
      exact this ▸ hb.2
    rw [hi _ hb.1, hVI]
    show (if x = u then _ else _) ≤ _
    rw [if_neg (fun hh : x = u => hn (hh ▸ hxo))]
    exact h.la f x hf hx
  · intro x hx
    rw [hVI]
    show (if x = u then _ else _) = _ ∨ ∃ e', _ ∧ _ ∧ (if x = u then _ else _) = _
    by_cases q : x = u
    · subst q; rw [if_pos rfl, hiu]; exact .inl rfl
    · rw [if_neg q]
      have hx := (List.mem_cons.1 hx).resolve_left q
      rw [hi x hx]
      rcases h.la' x hx with k | ⟨e', k1, k2, k3⟩
      · exact .inl k
      · exact .inr ⟨e', k1, k2, by rw [hi _ (hbko e' k1).1]; exact k3⟩
  · intro x hx hpx
    by_cases q : x = u
    · subst q
      rw [hpu] at hpx ⊢
      rcases hc with ⟨c1, _⟩ | ⟨c1, c2, c3, c4⟩
      · exact absurd c1 hpx
      · have hea := (hS.inv.links.arc _ _ c2).1
        refine ⟨e, c2, c3, ?_, ?_⟩
        · show ty' e = 14; rw [c4]; unfold treeTy; rw [update_of_ne (Ne.symm (twin_ne e)), update_self]
        · intro b; rw [hiu, ← hN]; exact he.Vr (by omega) b
    · have hx := (List.mem_cons.1 hx).resolve_left q
      rw [hp x hx] at hpx ⊢
      obtain ⟨f, f1, f2, f3, f4⟩ := h.root x hx hpx
      refine ⟨f, f1, f2, ?_, ?_⟩
      · show ty' f = 14
        rcases hc with ⟨_, _, c3⟩ | ⟨c1, c2, c3, c4⟩
        · rw [c3]; exact f3
        · rw [c4]; unfold treeTy
          have g1 : f ≠ twin e := by
            rintro rfl
            have : hdOf s0 (twin e) = p := hst.owner p e c2
            have hh := hst.disj f1 (hst.twins p e c2)
            rw [c3] at hh
            rcases D.parIn x hx with k | ⟨k, _⟩
            · exact hpx k
            · rw [hh] at k; exact hn k
          have g2 : f ≠ e := by
            rintro rfl
            rw [c3] at f2; exact q f2.symm
          rw [update_of_ne g1, update_of_ne g2]; exact f3
      · intro b
        rw [hi x hx]
        have hxi := (D.idxR x hx)
        rw [he.V _ (by omega) (.inr (by omega))]
        exact f4 b
  · intro x hx
    by_cases q : x = u
    · subst q; rw [hiu]; omega
    · have hx := (List.mem_cons.1 hx).resolve_left q
      rw [hi x hx]; exact h.rng x hx
  · intro x; rw [hVI]; exact h.pe x
  · rw [he.roots]; exact h.roots
  · intro v hv hv2 hv' b
    have h1 : v ≠ u := by omega
    have h2 : e = 0 ∨ v ≠ order.length + 1 + s.p.g.N := by
      rcases hc with ⟨_, c2, _⟩ | ⟨c1, c2, _⟩
      · exact .inl c2
      · right
        have := hv' u (by simp) (by rw [hpu]; have := D.range p c1; omega)
        rw [hiu] at this; rw [hN]; exact this
    rw [he.V v h1 h2]
    refine h.noRoot v hv hv2 ?_ b
    intro x hx hpx
    have := hv' x (List.mem_cons_of_mem _ hx) (by rw [hp x hx]; exact hpx)
    rw [hi x hx] at this; exact this

end Verif.Embed
