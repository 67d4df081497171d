import Verif.Embed.IsoEnds

/-
Joining the components and adding the edges not yet embedded.
-/
namespace Verif.Isolate
open Verif Verif.Embed Verif.Graph Verif.EGraph Verif.Random Verif.Test Function

variable {A : Nat → Prop} {B : Base} {s s' : EGraph} {L L' L'' fw : Nat → List Nat} {v : Nat}

theorem Ens.range {α : Type} {f : α → Nat → Option α} {R : Nat → α → Prop} {a : α} (h0 : R 0 a) : ∀ n, (∀ k a, k < n → R k a → Ens (f a k) (R (k + 1))) →
    Ens ((List.range n).foldlM f a) (R n)
  | 0, _ => Ens.some h0
  | n + 1, h => by
    rw [List.range_succ, List.foldlM_append]
    refine Ens.bind (Ens.range h0 n fun k a hk => h k a (by omega)) fun b hb => ?_
    rw [List.foldlM_cons]
    exact Ens.bind (h n b (by omega) hb) fun c hc => by rw [List.foldlM_nil]; exact Ens.pure hc

theorem erec_ext {a b : ERec} (h : ∀ d, a.link d = b.link d) (hn : a.nbr = b.nbr) (hf : a.flags = b.flags) : a = b := by
  obtain ⟨a1, a2, a3, a4⟩ := a
  obtain ⟨b1, b2, b3, b4⟩ := b
  have h1 : a1 = b1 := h false
  have h2 : a2 = b2 := h true
  simp only at hn hf
  subst h1 h2 hn hf; rfl

theorem links_at {g g' : Graph} (h : Links g L) (hN : g'.N = g.N) (hA : g'.arcCap = g.arcCap) (hE : ∀ x, ∀ e ∈ L x, ∀ b, (g'.E e).link b = (g.E e).link b)
    (hV : ∀ v b, (g'.V v).link b = (g.V v).link b) : Links g' L := by
  have hv : g'.vSize = g.vSize := by simp [Graph.vSize, hN]
  have he : g'.eSize = g.eSize := by simp [Graph.eSize, hA]
  refine ⟨fun v b hh => by rw [hV, h.vlink v b (hv ▸ hh)], fun v b e hm => by rw [hE v e hm, h.elink v b e hm], h.nodup, fun v e hm => by rw [he]; exact h.arc v e hm,
    fun v e hm => by rw [hv]; exact h.vert v e hm, h.disj⟩

/-- Vertices keep having arcs. -/
def Grow (B : Base) (L L' : Nat → List Nat) : Prop := ∀ u, u ≤ B.N → L u ≠ [] → L' u ≠ []
theorem Grow.refl (B : Base) (L : Nat → List Nat) : Grow B L L := fun _ _ h => h
theorem Grow.trans (h : Grow B L L') (h' : Grow B L' L'') : Grow B L L'' := fun u hu h0 => h' u hu (h u hu h0)

/-- Root copies have no arcs. -/
def Shut (B : Base) (L : Nat → List Nat) : Prop := ∀ c, 1 ≤ c → L (c + B.N) = []

theorem Part.joinOne (hB : NoLoop B) (P : Part B s L fw) {c : Nat} (h1 : 1 ≤ c) : Ens (s.joinOne (c + B.N)) fun s' =>
    ∃ L', Part B s' L' fw ∧ s'.ic = s.ic ∧ Grow B L L' ∧ L' (c + B.N) = [] ∧ ∀ k, 1 ≤ k → L (k + B.N) = [] → L' (k + B.N) = [] := by
  unfold EGraph.joinOne
  refine Ens.bind (P.lk.first (c + B.N) false) fun a ha => Ens.ite (fun h0 => ?_) fun h0 => Ens.some ⟨L, P, rfl, .refl _ _, ?_, fun _ _ h => h⟩
  · have hm := ha.resolve_left fun hh => h0 hh.2
    have hne : L (c + B.N) ≠ [] := List.ne_nil_of_mem hm.2
    have hc := P.root c h1 hne
    have hp : Ens (s.primaryOf (c + B.N)) fun z => z = B.par c := by
      unfold primaryOf childOf
      rw [P.N]
      refine Ens.bind (P := fun d => d = c) (Ens.ite (fun _ => Ens.some (by omega)) fun _ => Ens.none) fun d hd => ?_
      subst hd
      unfold PGraph.getParent
      exact Ens.bind (rdVI_val d) fun r hr => Ens.pure (by rw [hr.2]; exact P.parent d hc.1 hc.2.1)
    refine Ens.bind hp fun W hW => ?_
    have hlt := B.par_lt c hc.1 hc.2.1
    have hW1 : 1 ≤ W ∧ W ≤ B.N := by have := hc.2.2; have := hc.2.1; omega
    have hWR : W ≠ c + B.N := by omega
    obtain ⟨g', hg, k1, k2, k3, k4, k5, k6⟩ := mergeVertex_spec P.lk.links false hWR (by rw [P.N]; exact hW1)
      (by rw [P.N, P.vSize]; have := hc.2.1; omega) (fun e he => by
        obtain ⟨y, hy⟩ := P.lk.pair _ _ he
        exact (P.lk.links.arc y _ hy).2) hne
    rw [hg]
    generalize hR : c + B.N = R at *
    have hL : ∀ x, mergeRot L W R (appendEnd false (L W) (L R)) x = if x = W then L R ++ L W else if x = R then [] else L x := by
      intro x
      by_cases hx : x = W
      · subst hx; rw [mergeRot_u hWR, if_pos rfl]; rfl
      · rw [if_neg hx]
        by_cases hx' : x = R
        · subst hx'; rw [if_pos rfl, mergeRot_v]
        · rw [if_neg hx', mergeRot_of_ne hx hx']
    generalize hLL : mergeRot L W R (appendEnd false (L W) (L R)) = L' at *
    have hm : ∀ x e, e ∈ L' x ↔ (x = W ∧ (e ∈ L R ∨ e ∈ L W)) ∨ (x ≠ W ∧ x ≠ R ∧ e ∈ L x) := by
      intro x e
      rw [hL]
      by_cases hx : x = W
      · simp [hx]
      · by_cases hx' : x = R
        · simp [hx', hWR.symm]
        · simp [hx, hx']
    have hof : ∀ x e, e ∈ L' x → (e ∈ L R ∧ x = W) ∨ (e ∈ L x ∧ x ≠ R) := by
      intro x e he
      rcases (hm x e).1 he with ⟨rfl, h | h⟩ | ⟨_, h, h'⟩
      · exact .inl ⟨h, rfl⟩
      · exact .inr ⟨h, hWR⟩
      · exact .inr ⟨h', h⟩
    have hto : ∀ x e, e ∈ L x → ∃ y, e ∈ L' y := by
      intro x e he
      by_cases hx : x = R
      · exact ⟨W, (hm W e).2 (.inl ⟨rfl, .inl (hx ▸ he)⟩)⟩
      · by_cases hx' : x = W
        · exact ⟨W, (hm W e).2 (.inl ⟨rfl, .inr (hx' ▸ he)⟩)⟩
        · exact ⟨x, (hm x e).2 (.inr ⟨hx', hx, he⟩)⟩
    have harc : ∀ x e, e ∈ L' x → B.A e := by
      intro x e he
      rcases hof x e he with ⟨h, _⟩ | ⟨h, _⟩ <;> exact P.lk.arc _ e h
    have hhome : ∀ x e, e ∈ L' x → B.own e = B.home x := by
      intro x e he
      rcases hof x e he with ⟨h, rfl⟩ | ⟨h, _⟩
      · rw [P.home _ e h, B.home_le hW1.2]
        unfold Base.home
        rw [if_neg (by omega), hW]
        congr 1; omega
      · exact P.home x e h
    have hgrow : Grow B L L' := by
      intro u hu h
      rw [hL]
      split
      · rename_i hx
        intro hh
        exact hne (List.append_eq_nil_iff.1 hh).1
      · rw [if_neg (by omega)]; exact h
    have hW' : L' W ≠ [] := by rw [hL, if_pos rfl]; intro hh; exact hne (List.append_eq_nil_iff.1 hh).1
    have hshut : ∀ k, 1 ≤ k → L (k + B.N) = [] → L' (k + B.N) = [] := by
      intro k hk h
      rw [hL, if_neg (by omega)]
      split
      · rfl
      · exact h
    refine Ens.pure ⟨L', ⟨P.fix.trans (.of_fix k2), ⟨k1, ?_, ?_, harc, Part.apart hB hhome harc, ?_, P.lk.nil⟩, hhome, ?_, ?_, P.arc, P.own, ?_, P.up, P.down, ?_, P.once, ?_,
      P.parent, ?_⟩, rfl, hgrow, by rw [hL, if_neg hWR.symm, if_pos rfl], hshut⟩
    · intro x e he
      show (g'.E (twin e)).nbr = x
      rw [k5, twin_twin]
      rcases hof x e he with ⟨h, rfl⟩ | ⟨h, hx⟩
      · rw [if_pos h]
      · rw [if_neg fun hh => hx (P.lk.links.disj x R e h hh)]; exact P.lk.owner x e h
    · intro x e he
      rcases hof x e he with ⟨h, _⟩ | ⟨h, _⟩
      · obtain ⟨y, hy⟩ := P.lk.pair _ e h; exact hto y _ hy
      · obtain ⟨y, hy⟩ := P.lk.pair _ e h; exact hto y _ hy
    · intro e he
      rw [← P.lk.blank e he]
      refine erec_ext (fun d => k6 e d fun w hw => he (P.lk.arc w e hw)) ?_ (k4 e)
      show (g'.E e).nbr = _
      rw [k5, if_neg]
      intro hh
      have := B.tw _ (P.lk.arc R _ hh)
      rw [twin_twin] at this
      exact he this
    · intro k hk h
      by_contra hn
      exact h (hshut k hk (by_contra fun hh => hn (P.root k hk hh)))
    · refine P.fwl.congr k2.eSize (fun _ _ _ => rfl) fun z y hy => ?_
      exact ⟨k6 y false fun w hw => (P.off z y hy w).1 hw, k6 y true fun w hw => (P.off z y hy w).1 hw⟩
    · intro u f hf
      show (g'.E f).nbr = _
      rw [k5, if_neg (P.off u f hf R).2]; exact P.nbr u f hf
    · intro u f hf x
      refine ⟨fun h => ?_, fun h => ?_⟩
      · rcases hof x _ h with ⟨h, _⟩ | ⟨h, _⟩ <;> exact (P.off u f hf _).1 h
      · rcases hof x _ h with ⟨h, _⟩ | ⟨h, _⟩ <;> exact (P.off u f hf _).2 h
    · intro e he
      rcases P.cover e he with ⟨x, hx⟩ | h
      · exact .inl (hto x e hx)
      · exact .inr h
    · intro k hk
      obtain ⟨f1, f2⟩ := P.full k hk
      refine ⟨hgrow k hk.2.1 f1, ?_⟩
      have hk2 := B.par_lt k hk.1 hk.2.1
      by_cases hkc : k + B.N = R
      · right
        have : k = c := by omega
        rw [this, ← hW]; exact hW'
      · rcases f2 with h | h
        · left
          rw [hL, if_neg (by have := hk.1; omega), if_neg hkc]; exact h
        · right
          exact hgrow _ (by have := hk.2.1; omega) h
  · rcases ha with h | h
    · exact h.1
    · exact absurd h.1 h0

theorem Part.join (hB : NoLoop B) (P : Part B s L fw) : Ens s.joinBicomps fun s' => ∃ L', Part B s' L' fw ∧ s'.ic = s.ic ∧ Grow B L L' ∧ Shut B L' := by
  unfold EGraph.joinBicomps
  rw [P.N]
  refine (Ens.range (R := fun k s' => ∃ L', Part B s' L' fw ∧ s'.ic = s.ic ∧ Grow B L L' ∧ ∀ c, 1 ≤ c → c ≤ k → L' (c + B.N) = [])
    ⟨L, P, rfl, .refl _ _, fun c h1 h2 => by omega⟩ B.N ?_).mono ?_
  · rintro k s1 hk ⟨L1, P1, i1, g1, e1⟩
    rw [P1.N, show B.N + 1 + k = (k + 1) + B.N by omega]
    refine (P1.joinOne hB (by omega : 1 ≤ k + 1)).mono ?_
    rintro s2 ⟨L2, P2, i2, g2, e2, e3⟩
    refine ⟨L2, P2, i2.trans i1, g1.trans g2, fun c h1 h2 => ?_⟩
    by_cases hc : c = k + 1
    · rw [hc]; exact e2
    · exact e3 c h1 (e1 c h1 (by omega))
  · rintro s' ⟨L', P', i', g', e'⟩
    refine ⟨L', P', i', g', fun c h1 => ?_⟩
    by_cases hc : c ≤ B.N
    · exact e' c h1 hc
    · by_contra hh
      obtain ⟨e, l, he⟩ := List.exists_cons_of_ne_nil hh
      have := (P'.lk.links.vert (c + B.N) e (by rw [he]; simp)).2
      rw [P'.vSize] at this
      omega

theorem Up.ne (P : Part B s L' fw) (hg : Grow B L L') (hs : Shut B L') {u : Nat} (h : Up B L u) : L' u ≠ [] := by
  rcases h.2 with h' | ⟨c, hc, rfl⟩
  · exact hg u h.1.2 h'
  · exact (P.full c hc).2.resolve_left fun hh => hh (hs c hc.1)

end Verif.Isolate
