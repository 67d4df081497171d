import Verif.Embed.Orient
import Verif.Map.Outer

/-
_JoinBicomps puts the lists of the remaining root copies to the vertices.
-/
namespace Verif.Embed
open Verif Verif.Graph Verif.EGraph Equiv Equiv.Perm Verif.Map Function
open Verif.Props (AncEq)

/-- Lists with different labels are not joined. -/
theorem Core.sep {D : Type} [Finite D] {α σ : Perm D} {L : Nat → List D} (hα : ∀ d, α (α d) = d) (h : Core α σ L)
    {cp : Nat → Nat} (pair : ∀ x d, d ∈ L x → ∃ y, α d ∈ L y ∧ cp y = cp x) {x y : Nat} {d d' : D} (hd : d ∈ L x)
    (hd' : d' ∈ L y) (hne : cp x ≠ cp y) : ¬ (Map.joined σ α) d d' := by
  let lab : D → Set Nat := fun d => { k | ∃ x, d ∈ L x ∧ cp x = k }
  have lab_eq : ∀ {x d}, d ∈ L x → lab d = {cp x} := by
    intro x d hx
    ext k
    constructor
    · rintro ⟨y, hy, rfl⟩; rw [h.disj _ _ _ hy hx]; rfl
    · rintro rfl; exact ⟨x, hx, rfl⟩
  have rot : ∀ d, lab d = lab (σ d) := by
    intro d
    by_cases hd : ∃ x, d ∈ L x
    · obtain ⟨x, hx⟩ := hd
      rw [lab_eq hx, lab_eq ((h.orbit x).mem hx)]
    · rw [h.out d (fun x hx => hd ⟨x, hx⟩)]
  have opp : ∀ d, lab d = lab (α d) := by
    intro d
    by_cases hd : ∃ x, d ∈ L x
    · obtain ⟨x, hx⟩ := hd
      obtain ⟨y, hy, hc⟩ := pair x d hx
      rw [lab_eq hx, lab_eq hy, hc]
    · have hd' : ¬ ∃ x, α d ∈ L x := by
        rintro ⟨x, hx⟩
        obtain ⟨y, hy, _⟩ := pair x _ hx
        rw [hα] at hy
        exact hd ⟨y, hy⟩
      ext k
      constructor
      · rintro ⟨y, hy, _⟩; exact absurd ⟨y, hy⟩ hd
      · rintro ⟨y, hy, _⟩; exact absurd ⟨y, hy⟩ hd'
  intro hj
  have : Map.joined σ α ≤ Setoid.ker lab := sup_le (cycle_le rot) (cycle_le opp)
  have := this hj
  have e : lab d = lab d' := this
  rw [lab_eq hd, lab_eq hd'] at e
  exact hne (Set.singleton_injective e)

variable {B : Base} {s : EGraph} {σ : Perm B.D} {L : Nat → List B.D} {cp : Nat → Nat}

/-- The lists of all vertices agree with a plane map, and those of the root copies up to `k + N` have been joined. -/
structure Joining (B : Base) (s : EGraph) (σ : Perm B.D) (L : Nat → List B.D) (cp : Nat → Nat) (k : Nat) : Prop where
  fix : Fix B.g0 s.p.g
  core : Core B.α σ L
  pair : ∀ x d, d ∈ L x → ∃ y, B.α d ∈ L y ∧ cp y = cp x
  dom : ∀ x, L x ≠ [] → 1 ≤ x ∧ x ≤ B.N + B.N
  le : ∀ x, 1 ≤ x → x ≤ B.N → cp x ≤ x
  root : ∀ c, 1 ≤ c → L (c + B.N) ≠ [] → B.Child c ∧ cp (c + B.N) = c ∧ k < c
  full : ∀ d, ∃ x, d ∈ L x
  home : ∀ x d, d ∈ L x → B.own d.1 = B.home x
  links : Links s.p.g (fun x => (L x).map (·.1))
  owner : ∀ x d, d ∈ L x → (s.p.g.E (twin d.1)).nbr = x
  parent : ∀ x, 1 ≤ x → x ≤ B.N → (s.p.VI x).parent = B.par x
  zero : ∀ e, ¬ B.A e → s.p.g.E e = {}
  lone : ∀ x, 1 ≤ x → x ≤ B.N → L x = [] → ∀ y, (1 ≤ y ∧ y ≤ B.N) ∨ L y ≠ [] → cp y = cp x → y = x
  face : B.ap = true → ∀ x y p q, (L x).head? = some p → (L y).head? = some q → cp x = cp y → SameCycle (σ * B.α) p q

theorem Joining.N {k : Nat} (h : Joining B s σ L cp k) : s.p.g.N = B.N := by rw [h.fix.N, B.hN]

theorem mem_vals {l : List B.D} {e : Nat} : e ∈ l.map (·.1) ↔ ∃ h : B.A e, (⟨e, h⟩ : B.D) ∈ l := by simp

/-- The lists after joining. -/
theorem Joining.core_join {k : Nat} (h : Joining B s σ L cp k) {c W : Nat} (hc : 1 ≤ c) (hW : W < c ∧ 1 ≤ W)
    (hne : L (c + B.N) ≠ []) : ∃ σ', Core B.α σ' (update (update L W (L (c + B.N) ++ L W)) (c + B.N) []) ∧
      (∀ d d', SameCycle (σ * B.α) d d' → SameCycle (σ' * B.α) d d') ∧
      ∀ p q, (L (c + B.N)).head? = some p → (L W).head? = some q → SameCycle (σ' * B.α) p q := by
  classical
  obtain ⟨hch, hcp, hk⟩ := h.root c hc hne
  have hcN := hch.2.1
  have hWR : W ≠ c + B.N := by omega
  cases hLW : L W with
  | nil =>
    refine ⟨σ, (h.core.move hWR hLW).congr ?_, fun _ _ hh => hh, fun p q _ hq => by simp at hq⟩
    intro x
    by_cases hx : x = c + B.N
    · subst hx; rw [update_self, update_of_ne (Ne.symm hWR), update_self]
    · rw [update_of_ne hx]
      by_cases hxW : x = W
      · subst hxW; rw [update_self, update_self, List.append_nil]
      · rw [update_of_ne hxW, update_of_ne hxW, update_of_ne hx]
  | cons q w =>
    cases hLR : L (c + B.N) with
    | nil => exact absurd hLR hne
    | cons p z =>
      have hsep : ¬ (joined σ B.α) p q := by
        refine h.core.sep B.α_α h.pair (x := c + B.N) (y := W) (by rw [hLR]; simp) (by rw [hLW]; simp) ?_
        rw [hcp]
        have := h.le W hW.2 (by omega)
        omega
      have h1 := h.core.merge B.α_α (Z := c + B.N) (R := W) (Ne.symm hWR) hLR hLW (.inl hsep)
      have h2 := h1.move (Z := W) (R := c + B.N) hWR (by rw [update_of_ne hWR, update_self])
      have hnf : ¬ SameCycle (σ * B.α) p q := fun hh => hsep (face_le_joined _ _ hh)
      refine ⟨_, h2.congr ?_, ?_, ?_⟩
      rotate_left
      · intro d d' hd
        rw [mul_assoc]
        exact (left_merged' (σ * B.α) p q).trans (merged_eq (r := SameCycle.setoid _) (left_joins hnf)) hd
      · intro p' q' hp hq
        simp only [List.head?_cons, Option.some.injEq] at hp hq
        subst hp hq
        rw [mul_assoc]
        exact left_joins hnf
      intro x
      by_cases hx : x = c + B.N
      · subst hx; rw [update_self, update_of_ne (Ne.symm hWR), update_self]
      · rw [update_of_ne hx]
        by_cases hxW : x = W
        · subst hxW; rw [update_self, update_self, update_self]
        · rw [update_of_ne hxW, update_of_ne hxW, update_of_ne hx, update_of_ne hx, update_of_ne hxW]

theorem Joining.step {k : Nat} (h : Joining B s σ L cp k) (hk : k + 1 ≤ B.N) :
    ∃ s' σ' L' cp', s.joinOne (B.N + 1 + k) = some s' ∧ Joining B s' σ' L' cp' (k + 1) := by
  have hR : B.N + 1 + k = k + 1 + B.N := by omega
  rw [hR]
  set c := k + 1 with hc
  unfold joinOne
  simp only [Option.bind_eq_bind]
  have hv : c + B.N < s.p.g.vSize := by unfold Graph.vSize; rw [h.N]; omega
  rw [getArc_eq hv, Option.bind_some, h.links.vlink _ false hv]
  obtain ⟨a, ha⟩ : ∃ a, a = endIn false ((L (c + B.N)).map (·.1)) := ⟨_, rfl⟩
  rw [← ha]
  have hlive : a ≠ 0 ↔ L (c + B.N) ≠ [] := by
    rw [ha, Ne, endIn_zero_iff (h.links.zero_not_mem _), List.map_eq_nil_iff]
  by_cases ha0 : a ≠ 0
  · rw [if_pos ha0]
    have hne := hlive.1 ha0
    obtain ⟨hch, hcp, _⟩ := h.root c (by omega) hne
    have hlt := B.par_lt c hch.1 hch.2.1
    have hp0 := hch.2.2
    set W := B.par c with hW
    have hWR : W ≠ c + B.N := by omega
    have hz : s.primaryOf (c + B.N) = some W := by
      unfold primaryOf childOf
      rw [h.N, if_pos (by omega)]
      simp only [Option.bind_eq_bind, Option.bind_some]
      have e1 : c + B.N - B.N = c := by omega
      unfold PGraph.getParent
      rw [e1, rdVI_ok (by rw [h.N]; omega)]
      simp only [Option.bind_eq_bind, Option.bind_some, Option.pure_def]
      rw [h.parent c hch.1 hch.2.1]
    rw [hz, Option.bind_some]
    obtain ⟨g', m1, m2, m3, m4, m5, m6, m7⟩ := mergeVertex_spec h.links (W := W) (R := c + B.N) false hWR
      ⟨by omega, by rw [h.N]; omega⟩ ⟨by rw [h.N]; omega, hv⟩
      (fun e he => by
        obtain ⟨hA, _⟩ := mem_vals.1 he
        rw [h.fix.eSize]; exact (B.rng _ (B.tw e hA)).2)
      (by rw [Ne, List.map_eq_nil_iff]; exact hne)
    rw [m1, Option.bind_some]
    obtain ⟨σ', hcore, hsc, hpq⟩ := h.core_join (c := c) (W := W) (by omega) ⟨hlt, by omega⟩ hne
    set L' := update (update L W (L (c + B.N) ++ L W)) (c + B.N) [] with hL'
    have hL'x : ∀ x, L' x = if x = c + B.N then [] else if x = W then L (c + B.N) ++ L W else L x := by
      intro x
      rw [hL', update_apply]
      split
      · rfl
      · rw [update_apply]
    let mv : Nat → Nat := fun y => if y = c + B.N then W else y
    have hto : ∀ y d, d ∈ L y → d ∈ L' (mv y) := by
      intro y d hd
      show d ∈ L' (if y = c + B.N then W else y)
      by_cases hy : y = c + B.N
      · rw [if_pos hy, hL'x, if_neg hWR, if_pos rfl, ← hy]; simp [hd]
      · rw [if_neg hy, hL'x, if_neg hy]
        split
        · next e => subst e; simp [hd]
        · exact hd
    have hfrom : ∀ x d, d ∈ L' x → ∃ y, d ∈ L y ∧ mv y = x := by
      intro x d hd
      rw [hL'x] at hd
      split at hd
      · simp at hd
      · next h1 =>
        split at hd
        · next h2 =>
          rcases List.mem_append.1 hd with hd | hd
          · exact ⟨c + B.N, hd, by show (if _ = _ then W else _) = x; rw [if_pos rfl, h2]⟩
          · exact ⟨W, hd, by show (if W = _ then W else W) = x; rw [if_neg hWR, h2]⟩
        · exact ⟨x, hd, by show (if x = _ then W else x) = x; rw [if_neg h1]⟩
    let cp' : Nat → Nat := fun y => if cp y = c then cp W else cp y
    have hcpW : cp W ≠ c := by have := h.le W (by omega) (by omega); omega
    have hcpm : ∀ y, cp' (mv y) = cp' y := by
      intro y
      show (if cp (if y = c + B.N then W else y) = c then cp W else cp (if y = c + B.N then W else y)) = if cp y = c then cp W else cp y
      by_cases hy : y = c + B.N
      · rw [if_pos hy, if_neg hcpW, hy, hcp, if_pos rfl]
      · rw [if_neg hy]
    have hvals : (fun x => (L' x).map (·.1)) = mergeRot (fun x => (L x).map (·.1)) W (c + B.N)
        (appendEnd false ((L W).map (·.1)) ((L (c + B.N)).map (·.1))) := by
      funext x
      unfold mergeRot
      rw [hL'x]
      by_cases hx : x = c + B.N
      · rw [if_pos hx, hx, update_self]; rfl
      · rw [if_neg hx, update_of_ne hx]
        by_cases hxW : x = W
        · rw [if_pos hxW, hxW, update_self, List.map_append]; rfl
        · rw [if_neg hxW, update_of_ne hxW]
    refine ⟨_, σ', L', cp', rfl, h.fix.trans m3, hcore, ?_, ?_, ?_, ?_, ?_, ?_, ?_, ?_, h.parent, ?_, ?_, ?_⟩
    · intro x d hd
      obtain ⟨y, hy, rfl⟩ := hfrom x d hd
      obtain ⟨y', hy', hc'⟩ := h.pair y d hy
      refine ⟨mv y', hto _ _ hy', ?_⟩
      rw [hcpm, hcpm]
      show (if cp y' = c then cp W else cp y') = if cp y = c then cp W else cp y
      rw [hc']
    · intro x hx
      obtain ⟨d, hd⟩ := List.exists_mem_of_ne_nil _ hx
      obtain ⟨y, hy, rfl⟩ := hfrom x d hd
      show 1 ≤ (if y = c + B.N then W else y) ∧ (if y = c + B.N then W else y) ≤ B.N + B.N
      split
      · exact ⟨by omega, by omega⟩
      · exact h.dom y (List.ne_nil_of_mem hy)
    · intro x hx1 hx2
      show (if cp x = c then cp W else cp x) ≤ x
      have := h.le x hx1 hx2
      split
      · have := h.le W (by omega) (by omega); omega
      · exact this
    · intro k' hk1 hk2
      rw [hL'x] at hk2
      split at hk2
      · exact absurd rfl hk2
      · next h1 =>
        rw [if_neg (by omega)] at hk2
        obtain ⟨r1, r2, r3⟩ := h.root k' hk1 hk2
        have hne' : k' ≠ c := fun hh => h1 (by rw [hh])
        refine ⟨r1, ?_, by omega⟩
        show (if cp (k' + B.N) = c then cp W else cp (k' + B.N)) = k'
        rw [r2, if_neg hne']
    · intro d
      obtain ⟨x, hx⟩ := h.full d
      exact ⟨_, hto x d hx⟩
    · intro x d hd
      obtain ⟨y, hy, rfl⟩ := hfrom x d hd
      rw [h.home y d hy]
      show B.home y = B.home (if y = c + B.N then W else y)
      split
      · next e => rw [e, B.home_root (by omega), B.home_le (by omega)]
      · rfl
    · rw [hvals]; exact m2
    · intro x d hd
      show (g'.E (twin d.1)).nbr = x
      rw [m6, twin_twin]
      obtain ⟨y, hy, rfl⟩ := hfrom x d hd
      show _ = if y = c + B.N then W else y
      by_cases hyR : y = c + B.N
      · rw [if_pos hyR, if_pos]
        rw [← hyR]; exact List.mem_map.2 ⟨d, hy, rfl⟩
      · rw [if_neg hyR, if_neg, h.owner y d hy]
        intro hh
        obtain ⟨hA, hh⟩ := mem_vals.1 hh
        exact hyR (h.core.disj _ _ _ hy hh)
    · intro e hA
      show g'.E e = {}
      rw [← h.zero e hA]
      refine ERec.ext_link ?_ ?_ ?_
      · intro d
        exact m7 e d fun w hw => hA (mem_vals.1 hw).1
      · rw [m6, if_neg]
        intro hh
        have := B.tw _ (mem_vals.1 hh).1
        rw [twin_twin] at this
        exact hA this
      · rw [m5]
    · intro x h1 h2 hx y hy hc'
      rw [hL'x, if_neg (by omega)] at hx
      have hxW : x ≠ W := by
        rintro rfl
        rw [if_pos rfl] at hx
        exact hne (List.append_eq_nil_iff.1 hx).1
      rw [if_neg hxW] at hx
      have hxc : cp x ≠ c := by
        intro hh
        have := h.lone x h1 h2 hx (c + B.N) (.inr hne) (hcp.trans hh.symm)
        omega
      have hy' : (1 ≤ y ∧ y ≤ B.N) ∨ L y ≠ [] := by
        rcases hy with hy | hy
        · exact .inl hy
        · rw [hL'x] at hy
          split at hy
          · exact absurd rfl hy
          · split at hy
            · next e => exact .inl (by omega)
            · exact .inr hy
      change (if cp y = c then cp W else cp y) = if cp x = c then cp W else cp x at hc'
      rw [if_neg hxc] at hc'
      split at hc'
      · exact absurd (h.lone x h1 h2 hx W (.inl (by omega)) hc').symm hxW
      · exact h.lone x h1 h2 hx y hy' hc'
    · intro ap
      obtain ⟨p0, hp0⟩ : ∃ p0, (L (c + B.N)).head? = some p0 := by
        cases hq : L (c + B.N) with
        | nil => exact absurd hq hne
        | cons p0 l => exact ⟨p0, rfl⟩
      -- the head of each list, and a list of the components before with it in the same face
      have key : ∀ x p, (L' x).head? = some p → (x = W ∧ p = p0) ∨ (L x).head? = some p ∧ (x ≤ B.N ∨ cp x ≠ c) := by
        intro x p hx
        rw [hL'x] at hx
        split at hx
        · simp at hx
        · next h1 =>
          split at hx
          · next h2 =>
            left
            refine ⟨h2, ?_⟩
            rw [List.head?_append, hp0] at hx
            simpa using hx.symm
          · right
            refine ⟨hx, ?_⟩
            by_cases hxN : x ≤ B.N
            · exact .inl hxN
            · right
              have hnx : L x ≠ [] := by rintro hh; rw [hh] at hx; simp at hx
              have e : x - B.N + B.N = x := by omega
              have := h.root (x - B.N) (by omega) (by rw [e]; exact hnx)
              rw [e] at this
              rw [this.2.1]; omega
      have hone : ∀ x p, (L' x).head? = some p → cp' x = cp W → SameCycle (σ' * B.α) p0 p := by
        intro x p hx hcx
        rcases key x p hx with ⟨_, rfl⟩ | ⟨hh, _⟩
        · exact SameCycle.refl _ _
        · by_cases hxc : cp x = c
          · exact hsc _ _ (h.face ap (c + B.N) x p0 p hp0 hh (hcp.trans hxc.symm))
          · have hcx' : cp x = cp W := by
              change (if cp x = c then cp W else cp x) = cp W at hcx
              rwa [if_neg hxc] at hcx
            obtain ⟨q, hq⟩ : ∃ q, (L W).head? = some q := by
              cases hq : L W with
              | nil =>
                have := h.lone W (by omega) (by omega) hq x (.inr (by rintro h0; rw [h0] at hh; simp at hh)) hcx'
                rw [this, hq] at hh
                simp at hh
              | cons q l => exact ⟨q, rfl⟩
            exact (hpq p0 q hp0 hq).trans (hsc _ _ (h.face ap W x q p hq hh hcx'.symm))
      intro x y p q hx hy hxy
      by_cases hxW : cp' x = cp W
      · exact (hone x p hx hxW).symm.trans (hone y q hy (hxy ▸ hxW))
      · have hW' : cp' W = cp W := if_neg hcpW
        rcases key x p hx with ⟨rfl, _⟩ | ⟨kx, _⟩
        · exact absurd hW' hxW
        · rcases key y q hy with ⟨rfl, _⟩ | ⟨ky, _⟩
          · exact absurd (hxy.trans hW') hxW
          · have e1 : cp x ≠ c := by
              intro hh; exact hxW (if_pos hh)
            have e2 : cp y ≠ c := by
              intro hh; exact hxW (hxy.trans (if_pos hh))
            change (if cp x = c then cp W else cp x) = if cp y = c then cp W else cp y at hxy
            rw [if_neg e1, if_neg e2] at hxy
            exact hsc _ _ (h.face ap x y p q kx ky hxy)
  · rw [if_neg ha0]
    refine ⟨s, σ, L, cp, rfl, h.fix, h.core, h.pair, h.dom, h.le, ?_, h.full, h.home, h.links, h.owner, h.parent, h.zero, h.lone, h.face⟩
    intro k' h1 h2
    obtain ⟨r1, r2, r3⟩ := h.root k' h1 h2
    refine ⟨r1, r2, ?_⟩
    rcases Nat.lt_or_ge c k' with hh | hh
    · exact hh
    · have : k' = c := by omega
      subst this
      exact absurd (hlive.2 h2) ha0

theorem Joining.loop (h : Joining B s σ L cp 0) : ∀ (n : Nat), n ≤ B.N →
    ∃ s' σ' L' cp', (List.range n).foldlM (fun s i => s.joinOne (s.p.g.N + 1 + i)) s = some s' ∧ Joining B s' σ' L' cp' n := by
  intro n
  induction n with
  | zero => exact fun _ => ⟨s, σ, L, cp, rfl, h⟩
  | succ n ih =>
    intro hn
    obtain ⟨s1, σ1, L1, cp1, h1, m⟩ := ih (by omega)
    obtain ⟨s2, σ2, L2, cp2, h2, m2⟩ := m.step hn
    refine ⟨s2, σ2, L2, cp2, ?_, m2⟩
    rw [List.range_succ, List.foldlM_append, h1]
    simp only [List.foldlM_cons, List.foldlM_nil, Option.bind_eq_bind, Option.bind_some]
    rw [m.N, h2]
    rfl

variable {Pl : Plan B} {G : Gh B.D} {fw : Nat → List Nat}

/-- After the orientation. -/
theorem Ready.oriented (h : Ready Pl s G fw 0) :
    ∃ s' σ L cp, s.orientAll = some s' ∧ Joining B s' σ L cp 0 := by
  obtain ⟨G1, r1, g1, hm, hcp1, hX1, ho⟩ := normal h.st.rep h.st.good B.N le_rfl
  have hnil : ∀ x, G1.L x = [] ↔ G.L x = [] := by
    intro x
    rw [List.eq_nil_iff_forall_not_mem, List.eq_nil_iff_forall_not_mem]
    exact forall_congr' fun d => not_congr (hm x d)
  have hlive : ∀ c, G1.Live B.N c ↔ G.Live B.N c := by
    intro c; unfold Gh.Live; rw [Ne, Ne, hnil]
  have hstart : Oriented B G1 0 [] (s.setG s.p.g.clearStack) := by
    refine ⟨r1.orient.stack [], ⟨by simp, by simp, by simp, by simp⟩, rfl, ?_⟩
    intro k hk hl
    have := hl.1; omega
  have hN : (s.setG s.p.g.clearStack).p.g.N = B.N := r1.N
  unfold orientAll
  have hNs : s.p.g.N = B.N := r1.N
  rw [hNs]
  obtain ⟨s', dn, he, hd⟩ := orientAll_loop (fun c h1 h2 hl => (ho c h1 h2).1 hl) hstart B.N le_rfl
  have hin : ∀ x, B.Child x → x ∈ dn := by
    intro x
    induction x using Nat.strong_induction_on with
    | _ x ih =>
      intro hx
      have key : holder G1 x ∈ dn := by
        by_cases hl : G1.Live B.N x
        · rw [holder_live hl]; exact hd.roots x hx.2.1 hl
        · have hn : G1.L (x + B.N) = [] := by
            by_contra hh; exact hl ⟨hx.1, hh⟩
          rw [holder_dead hn]
          have hlt := B.par_lt x hx.1 hx.2.1
          have hp := hx.2.2
          have hxN := hx.2.1
          have := h.early x hx fun q => hl ((hlive x).2 q)
          exact ih _ hlt ⟨by omega, by omega, by omega⟩
      simpa using hd.todo.closed x hx key
  have hL : turned G1 dn = fun x => (G1.L x).map (·.1) := by
    funext x
    unfold turned
    split
    · rfl
    · next hx =>
      by_cases hne : G1.L x = []
      · rw [raw_nil.2 hne, hne]; rfl
      · have hdm := g1.dom x hne
        have : G1.o x = false := by
          by_cases hxN : x ≤ B.N
          · by_cases hp : B.par x = 0
            · exact (ho x hdm.1 hxN).2 hp
            · exact absurd (hin x ⟨hdm.1, hxN, hp⟩) hx
          · have e : x - B.N + B.N = x := by omega
            have hl : G1.Live B.N (x - B.N) := ⟨by omega, by rw [e]; exact hne⟩
            have := hd.roots _ (by omega) hl
            rw [e] at this
            exact absurd this hx
        unfold raw; rw [this]; rfl
  have hchl : ∀ x, B.Child x → G1.Live B.N (G1.cp x) := by
    intro x
    induction x using Nat.strong_induction_on with
    | _ x ih =>
      intro hx
      by_cases hl : G1.Live B.N x
      · rw [g1.own x hl]; exact hl
      · rw [g1.joined x hx.1 hx.2.1 hx.2.2 hl]
        have hlt := B.par_lt x hx.1 hx.2.1
        have hp := hx.2.2
        have hxN := hx.2.1
        have := h.early x hx fun q => hl ((hlive x).2 q)
        exact ih _ hlt ⟨by omega, by omega, by omega⟩
  have hdead : ∀ x, (1 ≤ x ∧ x ≤ B.N) ∨ G1.L x ≠ [] → ¬ G1.Live B.N (G1.cp x) → G1.cp x = x := by
    intro x hx hl
    by_cases hxN : x ≤ B.N
    · have h1 : 1 ≤ x := hx.elim And.left fun hh => (g1.dom x hh).1
      by_cases hp : B.par x = 0
      · exact g1.top x h1 hxN hp
      · exact absurd (hchl x ⟨h1, hxN, hp⟩) hl
    · exfalso
      have hne := hx.resolve_left fun hh => hxN hh.2
      have e : x - B.N + B.N = x := by omega
      have hl' : G1.Live B.N (x - B.N) := ⟨by omega, by rw [e]; exact hne⟩
      have := (g1.root _ hl').2.2
      rw [e] at this
      rw [this] at hl
      exact hl hl'
  refine ⟨s', G1.σ, G1.L, G1.cp, he, hd.ori.fix, g1.core, g1.pair, g1.dom, fun x h1 h2 => g1.cp_le B.par_lt h1 h2, ?_, ?_, ?_, ?_, ?_,
    hd.ori.parent, hd.ori.zero, ?_, ?_⟩
  · intro c h1 h2
    have := g1.root c ⟨h1, h2⟩
    exact ⟨⟨h1, this.1, this.2.1⟩, this.2.2, by omega⟩
  · intro d
    obtain ⟨x, hx⟩ := h.full d
    exact ⟨x, (hm x d).2 hx⟩
  · intro x d hd
    exact r1.home x d.1 (mem_raw'.2 hd)
  · rw [← hL]; exact hd.ori.links
  · intro x d hx
    exact hd.ori.owner x d.1 (mem_raw'.2 hx)
  · intro x h1 h2 hx y hy hc
    have hnc : ¬ B.Child x := by
      intro hh
      have := r1.foot x hh
      rw [raw_nil.2 hx] at this
      simp at this
    have hp : B.par x = 0 := by
      by_contra hh; exact hnc ⟨h1, h2, hh⟩
    have hcx := g1.top x h1 h2 hp
    have hl : ¬ G1.Live B.N (G1.cp y) := by
      rw [hc, hcx]
      intro hh
      exact (g1.root x hh).2.1 hp
    have := hdead y hy hl
    omega
  · intro ap x y p q hx hy hc
    have hnx : G1.L x ≠ [] := by rintro h0; rw [h0] at hx; simp at hx
    have hny : G1.L y ≠ [] := by rintro h0; rw [h0] at hy; simp at hy
    by_cases hl : G1.Live B.N (G1.cp x)
    · obtain ⟨r, l, T, t1, t2, t3, t4⟩ := g1.face _ hl
      have key : ∀ z p, (G1.L z).head? = some p → G1.cp z = G1.cp x → p ∈ r :: T := by
        intro z p hz hcz
        have hnz : G1.L z ≠ [] := by rintro h0; rw [h0] at hz; simp at hz
        have hdz := g1.dom z hnz
        by_cases hzN : z ≤ B.N
        · have hz' : z ∈ G1.X (G1.cp x) := by
            rw [hX1, ← hcz, hcp1]
            refine h.st.all ap z hdz.1 hzN ?_
            rw [← hcp1, hcz]
            exact (hlive _).1 hl
          have := t4.subset (List.mem_map_of_mem (f := G1.hd) hz')
          unfold Gh.hd at this
          rw [hz] at this
          exact List.mem_cons_of_mem _ (by simpa using this)
        · have e : z - B.N + B.N = z := by omega
          have hl' : G1.Live B.N (z - B.N) := ⟨by omega, by rw [e]; exact hnz⟩
          have h3 := (g1.root _ hl').2.2
          rw [e, hcz] at h3
          rw [h3, e] at t1
          rw [t1] at hz
          simp only [List.head?_cons, Option.some.injEq] at hz
          rw [hz]; exact List.mem_cons_self
      exact t2.same (key x p hx rfl) (key y q hy hc.symm)
    · have e1 := hdead x (.inr hnx) hl
      have e2 := hdead y (.inr hny) (hc ▸ hl)
      have : x = y := by omega
      subst this
      rw [hx] at hy
      cases hy
      exact SameCycle.refl _ _

/-- After joining. -/
theorem Ready.joined (h : Ready Pl s G fw 0) :
    ∃ s' s'' σ L cp, s.orientAll = some s' ∧ s'.joinBicomps = some s'' ∧ Joining B s'' σ L cp B.N := by
  obtain ⟨s', σ, L, cp, he, m⟩ := h.oriented
  obtain ⟨s'', σ', L', cp', he', m'⟩ := m.loop B.N le_rfl
  refine ⟨s', s'', σ', L', cp', he, ?_, m'⟩
  unfold joinBicomps
  rw [m.N]
  exact he'

end Verif.Embed
