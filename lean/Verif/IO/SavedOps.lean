import Verif.IO.Saved
import Verif.Props.Capacity

/-
What the steps of `_ReadAdjList` do to the edge store.
-/
namespace Verif.Text
open Verif Verif.Graph Function

/-! ### Circular lists -/

theorem circIn_mem {L : List Nat} {e : Nat} (he : e ∈ L) : circIn L e ∈ L := by
  unfold circIn
  rcases nextIn_mem_or L e with h | h
  · rw [if_pos h]
    rcases headD_mem_or (L := L) with hh | hh
    · rw [hh.2] at he; simp at he
    · exact hh
  · split
    · rcases headD_mem_or (L := L) with hh | hh
      · rw [hh.2] at he; simp at he
      · exact hh
    · exact h

theorem circIn_imp {L : List Nat} (hn : L.Nodup) (h0 : 0 ∉ L) {e x : Nat} (he : e ∈ L) (hx : x ∈ L)
    (h : circIn L e = x) : circIn L.reverse x = e := by
  have hnr := List.nodup_reverse.2 hn
  have h0r : 0 ∉ L.reverse := by simpa using h0
  unfold circIn at h ⊢
  by_cases hz : nextIn L e = 0
  · rw [if_pos hz] at h
    have h1 : nextIn L.reverse x = 0 := by
      rw [nextIn_eq_zero_iff hnr h0r (by simpa using hx), List.reverse_reverse]; exact h
    rw [if_pos h1]
    exact (nextIn_eq_zero_iff hn h0 he).1 hz
  · rw [if_neg hz] at h
    have h1 := (nextIn_eq_iff hn h0 he hx).1 h
    rw [if_neg (by rw [h1]; intro hc; exact h0 (hc ▸ he)), h1]

theorem circIn_iff {L : List Nat} (hn : L.Nodup) (h0 : 0 ∉ L) {e x : Nat} (he : e ∈ L) (hx : x ∈ L) :
    circIn L e = x ↔ circIn L.reverse x = e := by
  refine ⟨circIn_imp hn h0 he hx, fun h => ?_⟩
  have := circIn_imp (List.nodup_reverse.2 hn) (by simpa using h0) (by simpa using hx) (by simpa using he) h
  rwa [List.reverse_reverse] at this

theorem circIn_without {L : List Nat} (hn : L.Nodup) (h0 : 0 ∉ L) {e y : Nat} (he : e ∈ L) (hy : y ∈ L) (hne : y ≠ e) :
    circIn (without e L) y = if circIn L y = e then circIn L e else circIn L y := by
  have he0 : e ≠ 0 := fun hc => h0 (hc ▸ he)
  have hhd : L.headD 0 ≠ 0 := by
    rcases headD_mem_or (L := L) with hh | hh
    · rw [hh.2] at he; simp at he
    · intro hc; rw [hc] at hh; exact h0 hh
  unfold circIn
  rw [nextIn_without hn hne he0, headD_without hn]
  by_cases h1 : nextIn L y = e
  · rw [if_pos h1]
    have h2 : nextIn L y ≠ 0 := by rw [h1]; exact he0
    rw [if_neg h2, if_pos h1]
    split
    · next h3 =>
      rw [if_neg]
      intro hc
      -- e is the head and the last
      have h4 := (nextIn_eq_zero_iff hn h0 he).1 h3
      have h5 := (nextIn_eq_iff hn h0 hy he).1 h1
      have h6 : nextIn L.reverse e = 0 := by
        rw [nextIn_eq_zero_iff (List.nodup_reverse.2 hn) (by simpa using h0) (by simpa using he), List.reverse_reverse]
        exact hc
      rw [h6] at h5
      exact h0 (h5 ▸ hy)
    · rfl
  · rw [if_neg h1]
    by_cases h2 : nextIn L y = 0
    · rw [if_pos h2, if_pos h2]
      by_cases h3 : L.headD 0 = e
      · rw [if_pos h3, if_pos h3]
        rw [if_neg]
        intro hc
        have h4 := (nextIn_eq_zero_iff hn h0 he).1 hc
        have h5 := (nextIn_eq_zero_iff hn h0 hy).1 h2
        exact hne (h5.symm.trans h4)
      · rw [if_neg h3, if_neg h3]
    · rw [if_neg h2, if_neg h2, if_neg h1]

variable {g : Graph} {rot : Nat → List Nat} {v : Nat} {C : List Nat}

/-- The same arcs, linked in another way. -/
theorem Saved.move (h : Saved g rot v C) {g' : Graph} {rot' : Nat → List Nat} {v' : Nat} {C' : List Nat} (hs : SameBut g g')
    (hL : Links g' rot') (hm : ∀ w e, Has rot' v' C' w e ↔ Has rot v C w e) (hnd : C'.Nodup)
    (hap : ∀ e ∈ C', ∀ w, e ∉ rot' w) (hc : ∀ b e, e ∈ C' → (g'.E e).link b = circIn (dir b C') e)
    (hz : ∀ e, (∀ w, ¬ Has rot v C w e) → g'.E e = g.E e) : Saved g' rot' v' C' := by
  constructor
  · exact hL
  · rw [hs.holes, h.holes]
  · rw [hs.arcCap]; exact h.even
  · rw [hs.arcCap]; exact h.six
  · rw [hs.M, hs.arcCap]; exact h.room
  · rw [hs.arcCap, hs.holesCap]; exact h.hcap
  · exact hnd
  · exact hap
  · intro w e he; rw [hs.N]; exact h.small w e ((hm w e).1 he)
  · intro w e he; rw [hs.nbr]; exact h.owner w e ((hm w e).1 he)
  · intro w e he; rw [hs.nbr]; exact (hm _ _).2 (h.twins w e ((hm w e).1 he))
  · intro e h1 h2; rw [hs.M] at h2; obtain ⟨w, hw⟩ := h.cover e h1 h2; exact ⟨w, (hm w e).2 hw⟩
  · intro w e he; rw [hs.M]; exact h.below w e ((hm w e).1 he)
  · intro e he
    have h3 : ∀ w, ¬ Has rot v C w e := fun w hw => he w ((hm w e).2 hw)
    rw [hz e h3]; exact h.zero e h3
  · exact hc
  · intro w e e' he he'; rw [hs.nbr, hs.nbr]; exact h.uniq w e e' ((hm w e).1 he) ((hm w e').1 he')
  · intro w e he; rw [hs.nbr]; exact h.loop w e ((hm w e).1 he)

/-- `gp_AttachFirstArc` is gp_AttachArc at the front. -/
theorem attachFirst_eq {x : Nat} (hv : v < g.vSize) (hx : x < g.eSize) (hf : (g.V v).link false < g.eSize)
    (hne : (g.V v).link false ≠ x) : attachFirst g v x = g.attachArc v 0 false x := by
  unfold attachFirst attachArc
  rw [if_neg (by simp)]
  simp only [getArc_eq hv, Option.bind_eq_bind, Option.bind_some]
  generalize hff : (g.V v).link false = f at *
  by_cases h0 : f = 0
  · simp only [h0, ne_eq, not_true_eq_false, if_false]
    simp only [setAdj_eq hx, setArc_eq hv, Option.bind_some, Bool.not_false]
    rw [setArc_eq (by simpa using hv)]
    simp only [Option.bind_some]
    rw [setAdj_eq (by simpa using hx)]
    simp only [Option.bind_some]
    rw [setArc_eq (by simpa using hv), setAdj_eq (by simpa using hx)]
    simp only [Option.bind_some]
    rw [setAdj_eq (by simpa using hx)]
    simp only [Option.bind_some]
    rw [setArc_eq (by simpa using hv)]
    refine congrArg some (SameBut.eq ?_ ?_ ?_)
    · constructor <;> try (intros; rfl)
      all_goals (intro e; simp only [updE_E, updV_V, updE_V, updV_E]; split <;> simp)
    · intro e b; simp only [updE_E, updV_E]; split <;> cases b <;> simp
    · intro e b; simp only [updV_V, updE_V]; split <;> cases b <;> simp
  · simp only [ne_eq, h0, not_false_eq_true, if_true]
    simp only [setAdj_eq hx, setArc_eq hv, Option.bind_some, Bool.not_false]
    rw [setAdj_eq (by simpa using hf)]
    simp only [Option.bind_some]
    rw [setAdj_eq (by simpa using hx)]
    simp only [Option.bind_some]
    rw [setArc_eq (by simpa using hv), setAdj_eq (by simpa using hx)]
    simp only [Option.bind_some]
    rw [setAdj_eq (by simpa using hx)]
    simp only [Option.bind_some]
    rw [setAdj_eq (by simpa using hf)]
    refine congrArg some (SameBut.eq ?_ ?_ ?_)
    · constructor <;> try (intros; rfl)
      · intro e; simp only [updE_E, updV_E]; by_cases h1 : e = x
        · subst h1; simp [Ne.symm hne]
        · by_cases h2 : e = f <;> simp [h1, h2, hne]
      · intro e; simp only [updE_E, updV_E]; by_cases h1 : e = x
        · subst h1; simp [Ne.symm hne]
        · by_cases h2 : e = f <;> simp [h1, h2, hne]
    · intro e b
      simp only [updE_E, updV_V, updE_V, updV_E]
      by_cases h1 : e = x
      · subst h1; cases b <;> simp [Ne.symm hne]
      · by_cases h2 : e = f
        · subst h2; cases b <;> simp [hne]
        · simp [h1, h2]
    · intro e b; simp only [updE_E, updV_V, updE_V, updV_E]

/-- Taking an arc out of the saved list and putting it in front of the list of the vertex. -/
theorem Saved.pull (h : Saved g rot v C) {e : Nat} (he : e ∈ C) :
    ∃ g1 g', takeOut g (C.headD 0) e = some (g1, (without e C).headD 0) ∧ attachFirst g1 v e = some g' ∧
      Saved g' (update rot v (e :: rot v)) v (without e C) ∧ SameBut g g' := by
  have hH : ∀ {y}, y ∈ C → Has rot v C v y := fun hy => .inr ⟨rfl, hy⟩
  have h0 : 0 ∉ C := fun hc => by have := (h.below v 0 (hH hc)).1; omega
  have h0r : ∀ b, 0 ∉ dir b C := fun b => by simpa using h0
  have hnd : ∀ b, (dir b C).Nodup := fun b => nodup_dir h.nodup
  have hlt : ∀ {y}, y ∈ C → y < g.eSize := fun hy => h.lt (hH hy)
  have hmem : ∀ b, circIn (dir b C) e ∈ C := fun b => by simpa using circIn_mem (L := dir b C) (by simpa using he)
  have hv := h.small v e (hH he)
  have hvs : v < g.vSize := by unfold vSize; omega
  obtain ⟨n, hn⟩ : ∃ n, n = circIn C e := ⟨_, rfl⟩
  obtain ⟨p, hp⟩ : ∃ p, p = circIn C.reverse e := ⟨_, rfl⟩
  have hnC : n ∈ C := by have := hmem false; rw [dir_false, ← hn] at this; exact this
  have hpC : p ∈ C := by have := hmem true; rw [dir_true, ← hp] at this; exact this
  have hnl : (g.E e).link false = n := by rw [h.circ false e he, dir_false, hn]
  have hpl : (g.E e).link true = p := by rw [h.circ true e he, dir_true, hp]
  obtain ⟨g1, hg1⟩ : ∃ g1, g1 = (g.updE n (·.setLink true p)).updE p (·.setLink false n) := ⟨_, rfl⟩
  have hs1 : SameBut g g1 := by rw [hg1]; exact (sameBut_setLinkE g n true p).trans (sameBut_setLinkE _ p false n)
  have hpe : n = e → p = e := by
    intro hc
    rw [hn] at hc
    have := (circIn_iff h.nodup h0 he he).1 hc
    rw [hp, this]
  have ht : takeOut g (C.headD 0) e = some (g1, if C.headD 0 = e then (if n = e then 0 else n) else C.headD 0) := by
    unfold takeOut
    simp only [getAdj_eq (hlt he), Option.bind_eq_bind, Option.bind_some, hnl, hpl]
    rw [setAdj_eq (hlt hnC)]
    simp only [Option.bind_some]
    rw [getAdj_eq (by simpa using hlt he), getAdj_eq (by simpa using hlt he)]
    simp only [Option.bind_some]
    have h1 : ((g.updE n (·.setLink true p)).E e).link true = p := by
      rw [updE_E]; split
      · simp
      · exact hpl
    have h2 : ((g.updE n (·.setLink true p)).E e).link false = n := by
      rw [updE_E]; split
      · simp [hnl]
      · exact hnl
    rw [h1, h2, setAdj_eq (by simpa using hlt hpC)]
    simp only [Option.bind_some, hg1]
    rfl
  have hhead : (if C.headD 0 = e then (if n = e then 0 else n) else C.headD 0) = (without e C).headD 0 := by
    rw [headD_without h.nodup]
    by_cases hc : C.headD 0 = e
    · rw [if_pos hc, if_pos hc]
      unfold circIn at hn
      by_cases hz : nextIn C e = 0
      · rw [if_pos hz, hc] at hn
        rw [if_pos hn, hz]
      · rw [if_neg hz] at hn
        have hq : n ≠ e := ?_
        · rw [if_neg hq, hn]
        intro hne
        cases C with
        | nil => simp at he
        | cons a L =>
          simp only [List.headD_cons] at hc
          subst hc
          exact nextIn_ne_head h.nodup (fun hc => h0 (by rw [hc]; simp)) a (by rw [← hn, hne])
    · rw [if_neg hc, if_neg hc]
  rw [hhead] at ht
  have hEr : ∀ y, y ∉ C → g1.E y = g.E y := by
    intro y hy
    have h1 : y ≠ p := fun hc => hy (hc ▸ hpC)
    have h2 : y ≠ n := fun hc => hy (hc ▸ hnC)
    rw [hg1, updE_E, if_neg h1, updE_E, if_neg h2]
  have hL1 : Links g1 rot := by
    have hL := h.links
    constructor
    · intro w b hw
      rw [hg1]
      simp only [updE_V]
      refine hL.vlink w b ?_
      rwa [hs1.vSize] at hw
    · intro w b y hy
      rw [hEr y (fun hc => h.apart y hc w hy)]
      exact hL.elink w b y hy
    · exact hL.nodup
    · intro w y hy; rw [hs1.eSize]; exact hL.arc w y hy
    · intro w y hw; rw [hs1.vSize]; exact hL.vert w y hw
    · exact hL.disj
  have hfr : ∀ w, e ∉ rot w := h.apart e he
  have hvl : (g1.V v).link false = endIn false (rot v) := hL1.vlink v false (by rw [hs1.vSize]; exact hvs)
  have hfirst : (g1.V v).link false < g1.eSize ∧ (g1.V v).link false ≠ e := by
    rw [hvl]
    by_cases hc : endIn false (rot v) = 0
    · rw [hc]; exact ⟨by unfold eSize; omega, fun (hh : 0 = e) => h0 (hh ▸ he)⟩
    · have := endIn_mem hc
      exact ⟨by rw [hs1.eSize]; exact (h.links.arc v _ this).2, fun hh => hfr v (hh ▸ this)⟩
  obtain ⟨g', hg', hL', hs', hz'⟩ := attachArc_nil hL1 (v := v) (x := e) false ⟨hv.1, by rw [hs1.vSize]; exact hvs⟩
    ⟨(h.below v e (hH he)).1, by rw [hs1.eSize]; exact hlt he⟩ hfr
  refine ⟨g1, g', ht, ?_, ?_, hs1.trans hs'⟩
  · rw [attachFirst_eq (by rw [hs1.vSize]; exact hvs) (by rw [hs1.eSize]; exact hlt he) hfirst.1 hfirst.2]; exact hg'
  · have hpe' : putEnd false e (rot v) = e :: rot v := rfl
    rw [hpe'] at hL'
    refine h.move (hs1.trans hs') hL' ?_ (nodup_without h.nodup) ?_ ?_ ?_
    · intro w y
      unfold Has
      by_cases hw : w = v
      · subst hw
        rw [update_self, List.mem_cons, mem_without]
        constructor
        · rintro ((rfl | h1) | ⟨-, h2, -⟩)
          · exact .inr ⟨rfl, he⟩
          · exact .inl h1
          · exact .inr ⟨rfl, h2⟩
        · rintro (h1 | ⟨-, h2⟩)
          · exact .inl (.inr h1)
          · by_cases hy : y = e
            · exact .inl (.inl hy)
            · exact .inr ⟨rfl, h2, hy⟩
      · rw [update_of_ne hw]; simp [hw]
    · intro y hy w
      rw [mem_without] at hy
      by_cases hw : w = v
      · subst hw
        rw [update_self, List.mem_cons, not_or]
        exact ⟨hy.2, h.apart y hy.1 w⟩
      · rw [update_of_ne hw]; exact h.apart y hy.1 w
    · intro b y hy
      rw [mem_without] at hy
      rw [hz' y hy.2 (h.apart y hy.1), dir_without, hg1, updE_E, updE_E]
      have hcy := h.circ b y hy.1
      have e1 : circIn C y = e ↔ y = p := by
        rw [circIn_iff h.nodup h0 hy.1 he, ← hp]; exact eq_comm
      have hyr : y ∈ C.reverse := by simpa using hy.1
      have her : e ∈ C.reverse := by simpa using he
      have e2 : circIn C.reverse y = e ↔ y = n := by
        have := circIn_iff (hnd true) (h0r true) hyr her
        simp only [dir_true, List.reverse_reverse] at this
        rw [this, ← hn]; exact eq_comm
      have w1 := circIn_without h.nodup h0 he hy.1 hy.2
      have w2 := circIn_without (hnd true) (h0r true) her hyr hy.2
      rw [dir_true, ← hp] at w2
      rw [← hn] at w1
      cases b
      · simp only [dir_false] at hcy ⊢
        rw [w1]
        by_cases hc : y = p
        · rw [if_pos hc, if_pos (e1.2 hc)]; simp
        · rw [if_neg hc, if_neg (fun hh => hc (e1.1 hh)), ← hcy]
          split <;> simp
      · simp only [dir_true] at hcy ⊢
        rw [w2]
        by_cases hc : y = n
        · rw [if_pos (e2.2 hc)]
          split
          · simp [hc]
          · simp [hc]
        · rw [if_neg (fun hh => hc (e2.1 hh)), ← hcy, if_neg hc]
          split <;> simp
    · intro y hy
      have h1 : y ≠ e := fun hc => hy v (hH (hc ▸ he))
      rw [hz' y h1 fun w hw => hy w (.inl hw)]
      exact hEr y fun hc => hy v (hH hc)

/-- The new list of `v` is empty, the old one is saved. -/
theorem Saved.save (h : Saved g rot v []) (hv : 1 ≤ v ∧ v ≤ g.N) (hne : rot v ≠ []) :
    ∃ g', (do
        let g ← g.setAdj ((rot v).headD 0) true (endIn true (rot v))
        let g ← g.setAdj (endIn true (rot v)) false ((rot v).headD 0)
        let g ← g.setArc v false 0
        g.setArc v true 0) = some g' ∧ Saved g' (update rot v []) v (rot v) ∧ SameBut g g' := by
  have hvs : v < g.vSize := by unfold vSize; omega
  have h0 := h.links.zero_not_mem v
  have hnd := h.links.nodup v
  have hfm : (rot v).headD 0 ∈ rot v := by
    rcases headD_mem_or (L := rot v) with hh | hh
    · exact absurd hh.2 hne
    · exact hh
  have hlm : endIn true (rot v) ∈ rot v := by
    refine endIn_mem ?_
    intro hc
    exact hne ((endIn_zero_iff h0).1 hc)
  obtain ⟨f, hf⟩ : ∃ f, f = (rot v).headD 0 := ⟨_, rfl⟩
  obtain ⟨l, hl⟩ : ∃ l, l = endIn true (rot v) := ⟨_, rfl⟩
  rw [← hf] at hfm
  rw [← hl] at hlm
  rw [← hf, ← hl]
  have hfl := (h.links.arc v f hfm).2
  have hll := (h.links.arc v l hlm).2
  rw [setAdj_eq hfl]
  simp only [Option.bind_eq_bind, Option.bind_some]
  rw [setAdj_eq (by simpa using hll)]
  simp only [Option.bind_some]
  rw [setArc_eq (by simpa using hvs)]
  simp only [Option.bind_some]
  rw [setArc_eq (by simpa using hvs)]
  obtain ⟨g', hg'⟩ : ∃ g', g' = (((g.updE f (·.setLink true l)).updE l (·.setLink false f)).updV v (·.setLink false 0)).updV v
    (·.setLink true 0) := ⟨_, rfl⟩
  have hs : SameBut g g' := by
    rw [hg']
    exact (((sameBut_setLinkE g f true l).trans (sameBut_setLinkE _ l false f)).trans (sameBut_setLinkV _ v false 0)).trans
      (sameBut_setLinkV _ v true 0)
  have hE : ∀ y, y ∉ rot v → g'.E y = g.E y := by
    intro y hy
    rw [hg']
    simp only [updV_E, updE_E]
    have h1 : y ≠ l := fun hc => hy (hc ▸ hlm)
    have h2 : y ≠ f := fun hc => hy (hc ▸ hfm)
    rw [if_neg h1, if_neg h2]
  rw [← hg']
  refine ⟨g', rfl, h.move hs ?_ ?_ hnd ?_ ?_ ?_, hs⟩
  · have hL := h.links
    constructor
    · intro w b hw
      rw [hs.vSize] at hw
      rw [hg']
      simp only [updV_V, updE_V]
      by_cases hwv : w = v
      · subst hwv
        rw [update_self]
        cases b <;> simp [endIn]
      · rw [if_neg hwv, if_neg hwv, update_of_ne hwv]; exact hL.vlink w b hw
    · intro w b y hy
      by_cases hwv : w = v
      · subst hwv; rw [update_self] at hy; simp at hy
      · rw [update_of_ne hwv] at hy ⊢
        rw [hE y (fun hc => hwv (hL.disj w v y hy hc))]
        exact hL.elink w b y hy
    · intro w
      by_cases hwv : w = v
      · subst hwv; rw [update_self]; exact List.nodup_nil
      · rw [update_of_ne hwv]; exact hL.nodup w
    · intro w y hy
      rw [hs.eSize]
      by_cases hwv : w = v
      · subst hwv; rw [update_self] at hy; simp at hy
      · rw [update_of_ne hwv] at hy; exact hL.arc w y hy
    · intro w y hw
      rw [hs.vSize]
      by_cases hwv : w = v
      · subst hwv; rw [update_self] at hw; simp at hw
      · rw [update_of_ne hwv] at hw; exact hL.vert w y hw
    · intro w w' y hy hy'
      by_cases hwv : w = v
      · subst hwv; rw [update_self] at hy; simp at hy
      · by_cases hwv' : w' = v
        · subst hwv'; rw [update_self] at hy'; simp at hy'
        · rw [update_of_ne hwv] at hy; rw [update_of_ne hwv'] at hy'; exact hL.disj w w' y hy hy'
  · intro w y
    unfold Has
    by_cases hwv : w = v
    · subst hwv; rw [update_self]; simp
    · rw [update_of_ne hwv]; simp [hwv]
  · intro y hy w
    by_cases hwv : w = v
    · subst hwv; rw [update_self]; simp
    · rw [update_of_ne hwv]; exact fun hc => hwv (h.links.disj w v y hc hy)
  · intro b y hy
    rw [hg']
    simp only [updV_E, updE_E]
    have hel := h.links.elink v b y hy
    cases b
    · simp only [dir_false] at hel ⊢
      unfold circIn
      have hz : nextIn (rot v) y = 0 ↔ y = l := by
        rw [nextIn_eq_zero_iff hnd h0 hy, hl]; unfold endIn; rw [dir_true]; exact eq_comm
      by_cases hc : y = l
      · rw [if_pos hc, if_pos (hz.2 hc)]; simp [hf]
      · rw [if_neg hc, if_neg (fun hh => hc (hz.1 hh)), ← hel]; split <;> simp
    · simp only [dir_true] at hel ⊢
      unfold circIn
      have hz : nextIn (rot v).reverse y = 0 ↔ y = f := by
        rw [nextIn_eq_zero_iff (List.nodup_reverse.2 hnd) (by simpa using h0) (by simpa using hy), List.reverse_reverse, hf]
        exact eq_comm
      have hlr : (rot v).reverse.headD 0 = l := by rw [hl]; rfl
      by_cases hc : y = f
      · rw [if_pos (hz.2 hc), hlr, if_pos hc]; split <;> simp
      · rw [if_neg (fun hh => hc (hz.1 hh)), ← hel, if_neg hc]; split <;> simp
  · intro y hy
    exact hE y fun hc => hy v (.inl hc)

/-- gp_DynamicAddEdge of an edge that joins two vertices that were not joined. -/
theorem Saved.dynAdd (h : Saved g rot v C) {a b : Nat} (ha : 1 ≤ a ∧ a ≤ g.N) (hb : 1 ≤ b ∧ b ≤ g.N) (hab : a ≠ b)
    (hn : ∀ e, Has rot v C a e → (g.E e).nbr ≠ b) :
    ∃ g', g.dynamicAddEdge a 0 b 0 {} = some (g', .ok) ∧ Saved g' (addRot rot a b (2 + 2 * g.M)) v C ∧
      g'.N = g.N ∧ g'.M = g.M + 1 ∧ g'.flags = g.flags ∧
      (∀ e, (g'.E e).nbr = if e = 2 + 2 * g.M then a else if e = twin (2 + 2 * g.M) then b else (g.E e).nbr) ∧
      (∀ e, (g'.E e).flags = (g.E e).flags) ∧ (∀ w, (g'.V w).index = (g.V w).index) := by
  have hva : g.vertexOk (a : Int) = true := by simp [vertexOk]; omega
  have hvb : g.vertexOk (b : Int) = true := by simp [vertexOk]; omega
  by_cases hM : g.M < g.arcCap / 2
  · obtain ⟨g', hg', rest⟩ := h.add ha hb hab hn hM
    refine ⟨g', ?_, rest⟩
    unfold dynamicAddEdge
    rw [if_neg (by simp [hva, hvb]), hg']
    simp
  · have hfull : g.addEdge (a : Int) 0 (b : Int) 0 = some (g, .nonembeddable) := by
      unfold addEdge
      rw [if_neg (by simp [hva, hvb]), if_pos (by omega)]
    have hcnt := h.count ha hb hab hn
    have hev := h.even
    have h6 := h.six
    obtain ⟨m, hm⟩ : ∃ m : Int, m = (g.N : Int) * ((g.N : Int) - 1) := ⟨_, rfl⟩
    have hme : m % 2 = 0 := by rw [hm]; exact Verif.Props.consecutive_even _
    rw [← hm] at hcnt
    obtain ⟨r, hr⟩ : ∃ r, r = g.dynamicCapacity := ⟨_, rfl⟩
    have hr1 : (g.arcCap : Int) < r ∧ r % 2 = 0 := by
      rw [hr]
      unfold dynamicCapacity getArcCapacity
      simp only [← hm]
      split <;> omega
    have hens : ∃ s c, g.ensureArcCapacity g.dynamicCapacity {} = ⟨{ g with
        arcCap := r.toNat, holesCap := r.toNat / 2, stack := s, stackCap := c }, false, .ok⟩ := by
      rcases ensure_cases g g.dynamicCapacity {} (by rw [h.holes]; simp) with hc | ⟨-, hc | ⟨-, hc | hc | hc⟩⟩
      · omega
      · omega
      · obtain ⟨s, c, hk, -⟩ := hc
        refine ⟨s, c, ?_⟩
        rw [hk, hr]
        have hE : (fun e => if g.eSize ≤ e ∧ e < 2 + g.dynamicCapacity.toNat then {} else g.E e) = g.E := by
          funext e
          split
          · next hc =>
            rw [h.zero e]
            intro w hw
            have := h.lt hw
            omega
          · rfl
        rw [hE]
      · obtain ⟨s, c, -, -, -, hc⟩ := hc
        simp at hc
      · simp at hc
    obtain ⟨s, c, hk⟩ := hens
    have hg := h.grow (req := r.toNat) (by omega) (by omega) s c
    obtain ⟨g', hg', rest⟩ := hg.add (a := a) (b := b) ha hb hab hn (by show g.M < r.toNat / 2; have := h.room; omega)
    refine ⟨g', ?_, rest⟩
    unfold dynamicAddEdge
    rw [if_neg (by simp [hva, hvb]), hfull]
    simp only [Option.bind_eq_bind, Option.bind_some, if_true]
    rw [hk]
    simpa using hg'

/-- gp_SetDirection(theGraph, e, EDGEFLAG_DIRECTION_INONLY). -/
theorem Saved.direct (h : Saved g rot v C) {w e : Nat} (he : Has rot v C w e) :
    ∃ g', g.setDirection e INONLY = some g' ∧ Saved g' rot v C ∧ g'.N = g.N ∧ g'.M = g.M ∧ g'.flags = g.flags ∧ g'.V = g.V ∧
      (∀ a, (g'.E a).nbr = (g.E a).nbr) ∧
      (∀ a, (g'.E a).flags = if a = e then (g.E a).flags ||| INONLY else if a = twin e then (g.E a).flags ||| OUTONLY
        else (g.E a).flags) := by
  have h1 := h.lt he
  have hte := h.twins w e he
  have h2 := h.lt hte
  have hne := twin_ne e
  unfold setDirection
  simp only [rdE, h1, if_true, Option.bind_eq_bind, Option.bind_some]
  rw [wrE_eq h1]
  simp only [Option.bind_some, updE_eSize, h2, if_true]
  rw [wrE_eq (by simpa using h2)]
  simp only [updE_E, hne, if_false]
  refine ⟨_, rfl, ?_, rfl, rfl, rfl, rfl, ?_, ?_⟩
  · refine h.congr rfl rfl rfl rfl rfl (fun _ _ => rfl) ?_ ?_ ?_
    · intro a b
      simp only [updE_E]
      by_cases ha : a = twin e
      · rw [if_pos ha, ha]; rfl
      · rw [if_neg ha]
        by_cases ha' : a = e
        · rw [if_pos ha', ha']; rfl
        · rw [if_neg ha']
    · intro a
      simp only [updE_E]
      by_cases ha : a = twin e
      · rw [if_pos ha, ha]
      · rw [if_neg ha]
        by_cases ha' : a = e
        · rw [if_pos ha', ha']
        · rw [if_neg ha']
    · intro a ha
      simp only [updE_E]
      rw [if_neg (fun hc => ha _ (hc ▸ hte)), if_neg (fun hc => ha _ (hc ▸ he))]
  · intro a
    simp only [updE_E]
    by_cases ha : a = twin e
    · rw [if_pos ha, ha]
    · rw [if_neg ha]
      by_cases ha' : a = e
      · rw [if_pos ha', ha']
      · rw [if_neg ha']
  · intro a
    simp only [updE_E]
    by_cases ha : a = twin e
    · subst ha; rw [if_pos rfl, if_neg hne, if_pos rfl]
    · rw [if_neg ha]
      by_cases ha' : a = e
      · subst ha'; rw [if_pos rfl, if_pos rfl]
      · rw [if_neg ha', if_neg ha', if_neg ha]

end Verif.Text
