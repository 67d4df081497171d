import Verif.Props.Vertices
import Verif.Graph.Unmerge
import Verif.Spec.Merge

/-
Property theorems C10, C11, C56: identifying vertices and contracting edges.
-/
namespace Verif.Props
open Verif Verif.Graph Function

/-- Translation of the caller's obligations to the represented lists. -/
theorem mergeable_iff {g rot} (h : Inv g rot) {u v : Nat} (hm : Mergeable g u v) :
    u ≠ v ∧ (1 ≤ u ∧ u < g.vSize) ∧ (1 ≤ v ∧ v < g.vSize) ∧
    ((rot u).map fun e => (g.E e).nbr).Nodup ∧ (∀ e ∈ rot v, (g.E e).nbr ≠ v) ∧
    ∀ w, 1 ≤ w → w < g.vSize → (g.V w).flags % 2 = 0 := by
  have hnbr : ∀ w e, e ∈ rot w → g.getNbr e = some (g.E e).nbr := fun w e he =>
    getNbr_eq (h.links.arc _ _ he).2
  refine ⟨hm.vert.2.2, vSize_iff.1 hm.vert.1, vSize_iff.1 hm.vert.2.1, ?_, ?_, ?_⟩
  · apply List.Nodup.map_on _ (h.links.nodup u)
    intro a ha b hb hab
    exact hm.simple a b (h.arcAt.2 ha) (h.arcAt.2 hb) (by rw [hnbr u a ha, hnbr u b hb, hab])
  · intro e he hn
    exact hm.loopless ⟨e, h.arcAt.2 he, by rw [hnbr v e he, hn]⟩
  · intro w h1 h2
    have := hm.clear w (vSize_iff.2 ⟨h1, h2⟩)
    simp only [getVisited, rdV, h2, if_true, Option.bind_eq_bind, Option.bind_some] at this
    have : ¬ (g.V w).flags % 2 = 1 := by simpa using this
    omega

theorem sees_iff {g rot} (h : Inv g rot) {u w : Nat} :
    Sees g u w ↔ w ∈ (rot u).map fun e => (g.E e).nbr := by
  simp only [Sees, List.mem_map]
  constructor
  · rintro ⟨e, ha, hn⟩
    have he := h.arcAt.1 ha
    refine ⟨e, he, ?_⟩
    rw [getNbr_eq (h.links.arc _ _ he).2] at hn
    exact Option.some.inj hn
  · rintro ⟨e, he, hn⟩
    exact ⟨e, h.arcAt.2 he, by rw [getNbr_eq (h.links.arc _ _ he).2, hn]⟩

/-- The merged lists in terms of what a user sees. `S` is what `u` sees apart from `v`. -/
theorem merged_of {g g' : Graph} {rot rot' : Nat → List Nat} (h : Inv g rot) {u v : Nat} (huv : u ≠ v)
    (hu : u < g.vSize) (hv : v < g.vSize) {A K B : List Nat}
    (hW : WInv g' rot') (hr' : rot' u = A ++ K ++ B ∧ rot' v = [])
    (hABsub : ∀ e ∈ A ++ B, e ∈ rot u ∧ (g.E e).nbr ≠ v)
    (hKsub : K.Sublist (rot v))
    (hK : ∀ e ∈ rot v, (e ∈ K ↔ (g.E e).nbr ≠ u ∧ ¬ Sees g u (g.E e).nbr))
    (hloop : ∀ e ∈ rot v, (g.E e).nbr ≠ v)
    (hoth : ∀ w, w ≠ u → w ≠ v → (rot' w).Sublist (rot w) ∧
      ∀ e ∈ rot w, (e ∈ rot' w ↔ ¬ ((g.E e).nbr = v ∧ Sees g u w)))
    (hfr : g'.N = g.N ∧ g'.M = g.M ∧ g'.arcCap = g.arcCap ∧ g'.holes = g.holes ∧ g'.flags = g.flags ∧
      (∀ e, (g'.E e).flags = (g.E e).flags) ∧
      ∀ w, (g'.V w).index = (g.V w).index ∧ (g'.V w).flags = (g.V w).flags)
    (hnb : ∀ e, (g'.E e).nbr = if twin e ∈ K then u else (g.E e).nbr) : Merged g g' u v A K B := by
  have hnbr : ∀ w e, e ∈ rot w → g.getNbr e = some (g.E e).nbr := fun w e he =>
    getNbr_eq (h.links.arc _ _ he).2
  have hvs : g'.vSize = g.vSize := by simp [vSize, hfr.1]
  have hes : g'.eSize = g.eSize := by simp [eSize, hfr.2.2.1]
  refine ⟨⟨rot v, hasList h.links hv, hKsub, ?_⟩, ⟨?_, ?_⟩, ?_, ?_, hfr⟩
  · intro e he
    rw [hK e he, hnbr v e he]
    simp
  · rw [← hr'.1]; exact hasList hW.links (by rw [hvs]; exact hu)
  · rw [← hr'.2]; exact hasList hW.links (by rw [hvs]; exact hv)
  · intro w hw hwu hwv
    have hw' := vSize_iff.1 hw
    refine ⟨rot w, rot' w, hasList h.links hw'.2, hasList hW.links (by rw [hvs]; exact hw'.2),
      (hoth w hwu hwv).1, ?_⟩
    intro e he
    rw [(hoth w hwu hwv).2 e he, hnbr w e he]
    simp
  · rintro e ⟨w, hw⟩
    -- e is an arc of g'
    have hwl : e ∈ rot' w := by
      obtain ⟨L, hwalk, hmem⟩ := hw
      by_cases hlt : w < g'.vSize
      · rw [walk_eq hW.links hlt false] at hwalk
        cases hwalk; exact hmem
      · simp [walk, getArc, rdV, hlt] at hwalk
    obtain ⟨w0, he0⟩ : ∃ w0, e ∈ rot w0 := by
      by_cases hwu : w = u
      · rw [hwu, hr'.1] at hwl
        simp only [List.mem_append] at hwl
        rcases hwl with (hh | hh) | hh
        · exact ⟨u, (hABsub e (by simp [hh])).1⟩
        · exact ⟨v, hKsub.subset hh⟩
        · exact ⟨u, (hABsub e (by simp [hh])).1⟩
      · by_cases hwv : w = v
        · rw [hwv, hr'.2] at hwl; simp at hwl
        · exact ⟨w, (hoth w hwu hwv).1.subset hwl⟩
    have hla := (h.links.arc _ _ he0).2
    rw [getNbr_eq (by rw [hes]; exact hla), hnbr w0 e he0, hnb]
    simp only [Option.some.injEq]
    have hiff : twin e ∈ K ↔ (g.E e).nbr = v := by
      constructor
      · intro hk
        have := h.owner v _ (hKsub.subset hk)
        rwa [twin_twin] at this
      · intro hn
        by_contra hk
        have htv : twin e ∈ rot v := hn ▸ h.twins w0 e he0
        have hown : (g.E (twin e)).nbr = w0 := h.owner w0 e he0
        have hw0v : w0 ≠ v := fun hh => hloop (twin e) htv (hown.trans hh)
        by_cases hwu : w = u
        · rw [hwu, hr'.1] at hwl
          simp only [List.mem_append] at hwl
          rcases hwl with (hh | hh) | hh
          · exact (hABsub e (by simp [hh])).2 hn
          · exact hw0v (h.links.disj _ _ _ he0 (hKsub.subset hh))
          · exact (hABsub e (by simp [hh])).2 hn
        · by_cases hwv : w = v
          · rw [hwv, hr'.2] at hwl; simp at hwl
          · have hew := (hoth w hwu hwv).1.subset hwl
            have hww0 : w0 = w := h.links.disj _ _ _ he0 hew
            have hns := ((hoth w hwu hwv).2 e hew).1 hwl
            apply hk
            rw [hK _ htv, hown, hww0]
            exact ⟨hwu, fun hs => hns ⟨hn, hs⟩⟩
    by_cases hk : twin e ∈ K
    · rw [if_pos hk, if_pos (hiff.1 hk)]
    · rw [if_neg hk, if_neg (mt hiff.2 hk)]

/-- Which arcs of other vertices disappear when the arcs `H` of v are hidden. -/
theorem mem_removeAll_other {g rot} (h : Inv g rot) {v w e : Nat} {H : List Nat} (hH : ∀ a ∈ H, a ∈ rot v)
    (hwv : w ≠ v) (he : e ∈ rot w) : e ∈ removeAll H rot w ↔ twin e ∉ H := by
  unfold removeAll
  simp only [List.mem_filter, he, true_and, decide_eq_true_eq, List.mem_map]
  constructor
  · intro hn ht; exact hn ⟨twin e, ht, twin_div e⟩
  · rintro hn ⟨a, ha, hd⟩
    rcases div_eq_cases hd with rfl | rfl
    · exact hwv (h.links.disj _ _ _ he (hH _ ha))
    · exact hn ha

/-- **C56 (non-adjacent).** gp_IdentifyVertices(u, v, eBefore) for vertices that are not adjacent
merges v into u at the position of `before` (at the end if `before` is NIL). -/
theorem C56_identify_apart {g : Graph} (hr : Reach g) (s : List Nat) {u v before : Nat}
    (hm : Mergeable g u v) (hadj : ¬ Sees g u v) (hb : before = 0 ∨ g.ArcAt u before)
    (hroom : s.length + listLength g v + 7 ≤ g.stackCap) :
    ∃ g' A K B, (g.withStack s).identifyVertices u v before = some (g', .ok) ∧
      HasList g u (A ++ B) ∧ before = B.headD 0 ∧ Merged g g' u v A K B ∧
      ((K = [] ∨ K.length = 1 ∧ before = 0) → g'.restoreVertex = some (g.withStack s, .ok)) := by
  obtain ⟨rot, h⟩ := hr.inv
  obtain ⟨huv, hu, hv, hsim, hloop, hclear⟩ := mergeable_iff h hm
  have hadj' : ∀ e ∈ rot u, (g.E e).nbr ≠ v := by
    intro e he hn; exact hadj ((sees_iff h).2 (hn ▸ List.mem_map_of_mem (f := fun e => (g.E e).nbr) he))
  obtain ⟨A, B, hru, hbB⟩ : ∃ A B, rot u = A ++ B ∧ before = B.headD 0 := by
    rcases hb with rfl | hb
    · exact ⟨rot u, [], by simp, rfl⟩
    · obtain ⟨A, B, hh⟩ := List.append_of_mem (h.arcAt.1 hb)
      exact ⟨A, before :: B, hh, rfl⟩
  have hW := h.weak.withStack s
  have hlen : listLength g v = (rot v).length := by
    simp [listLength, walk_eq h.links hv.2 false]
  obtain ⟨m, hmm⟩ : ∃ m : Nat → Bool, m = fun e => decide ((g.E e).nbr ∈ (rot u).map fun e => (g.E e).nbr) :=
    ⟨_, rfl⟩
  obtain ⟨H, hH⟩ : ∃ H, H = (rot v).filter m := ⟨_, rfl⟩
  obtain ⟨K, hK⟩ : ∃ K, K = (rot v).filter (fun e => !m e) := ⟨_, rfl⟩
  obtain ⟨g', e0, e1, e2, e3, e4, e5, e6, e7, e8, e9, e10, e11, e12⟩ := identifyApart_spec hW huv hu hv hru hadj' hloop
    hsim hclear (by show s.length + _ + 7 ≤ g.stackCap; omega) hmm hH hK
  have hid : (g.withStack s).identifyVertices u v before = some (g', .ok) := by
    unfold identifyVertices depth
    rw [identify_apart hW hu hv.1 hadj', hbB]; exact e0
  refine ⟨g', A, K, B, hid, hru ▸ hasList h.links hu.2, hbB, ?_, ?_⟩
  · refine merged_of h huv hu.2 hv.2 e1 ⟨mergeRot_u huv, mergeRot_v⟩ ?_ (hK ▸ List.filter_sublist) ?_
      hloop ?_ ⟨e2, e3, e4, e6, e7, e10, e11⟩ e9
    · intro e he
      rw [← hru] at he
      exact ⟨he, hadj' e he⟩
    · intro e he
      rw [hK, List.mem_filter, sees_iff h, hmm]
      simp only [he, true_and, Bool.not_eq_true', decide_eq_false_iff_not]
      refine ⟨fun hh => ⟨?_, hh⟩, fun hh => hh.2⟩
      intro hn
      have : twin e ∈ rot u := hn ▸ h.twins v e he
      exact hadj' _ this (h.owner v e he)
    · intro w hwu hwv
      rw [mergeRot_of_ne hwu hwv]
      refine ⟨List.filter_sublist, ?_⟩
      intro e he
      rw [hH, hmm, mem_removeAll_other h (fun a ha => (List.mem_filter.1 ha).1) hwv he, sees_iff h,
        List.mem_filter]
      apply not_congr
      simp only [decide_eq_true_eq]
      constructor
      · rintro ⟨h1, h2⟩
        have ho : (g.E (twin e)).nbr = w := h.owner w e he
        refine ⟨?_, ho ▸ h2⟩
        have := h.owner v _ h1
        rwa [twin_twin] at this
      · rintro ⟨h1, h2⟩
        have ho : (g.E (twin e)).nbr = w := h.owner w e he
        exact ⟨h1 ▸ h.twins w e he, by rw [ho]; exact h2⟩
  · intro hc
    have := e12 (hc.imp id (fun hh => ⟨hh.1, by
      have := hh.2; rw [hbB] at this
      by_contra hB
      have h0 := h.links.zero_not_mem u
      rw [hru, List.mem_append, not_or] at h0
      rcases headD_mem_or (L := B) with h1 | h1
      · exact hB h1.2
      · rw [this] at h1; exact h0.2 h1⟩)) s.length (le_refl _)
    rw [restoreHidden_done (g.withStack s) _ s.length (le_refl _)] at this
    rw [← withStack_self g', e8]
    exact this

/-- The lists after a contraction, read back as a merge. -/
theorem merged_contract {g g' : Graph} {rot : Nat → List Nat} (h : Inv g rot) {u v e : Nat} (huv : u ≠ v)
    (hu : u < g.vSize) (hv : v < g.vSize) {A B H K : List Nat} {m : Nat → Bool}
    (hru : rot u = A ++ e :: B) (hev : (g.E e).nbr = v)
    (hsim : ((rot u).map fun e => (g.E e).nbr).Nodup) (hloop : ∀ e ∈ rot v, (g.E e).nbr ≠ v)
    (hm : m = fun a => decide ((g.E a).nbr ∈ (A ++ B).map fun e => (g.E e).nbr))
    (hH : H = ((rot v).filter (· ≠ twin e)).filter m)
    (hK : K = ((rot v).filter (· ≠ twin e)).filter (fun e => !m e))
    (hW : WInv g' (mergeRot (removeAll H (removeRot e rot)) u v (A ++ K ++ B)))
    (hfr : g'.N = g.N ∧ g'.M = g.M ∧ g'.arcCap = g.arcCap ∧ g'.holes = g.holes ∧ g'.flags = g.flags ∧
      (∀ e, (g'.E e).flags = (g.E e).flags) ∧
      ∀ w, (g'.V w).index = (g.V w).index ∧ (g'.V w).flags = (g.V w).flags)
    (hnb : ∀ e, (g'.E e).nbr = if twin e ∈ K then u else (g.E e).nbr) : Merged g g' u v A K B := by
  have he : e ∈ rot u := by rw [hru]; simp
  have htv : twin e ∈ rot v := hev ▸ h.twins u e he
  have hto : (g.E (twin e)).nbr = u := h.owner u e he
  rw [hru, List.map_append, List.map_cons] at hsim
  have hsim' : (g.E e).nbr ∉ (A ++ B).map fun e => (g.E e).nbr := by
    have := (List.perm_middle (a := (g.E e).nbr) (l₁ := A.map fun e => (g.E e).nbr)
      (l₂ := B.map fun e => (g.E e).nbr)).nodup_iff.1 hsim
    rw [List.nodup_cons, ← List.map_append] at this
    exact this.1
  have hAB : ∀ a ∈ A ++ B, a ∈ rot u ∧ (g.E a).nbr ≠ v := by
    intro a ha
    refine ⟨by rw [hru]; simp only [List.mem_append, List.mem_cons] at ha ⊢; tauto, ?_⟩
    intro hn
    exact hsim' (by rw [hev, ← hn]; exact List.mem_map_of_mem (f := fun e => (g.E e).nbr) ha)
  have huniq : ∀ a ∈ rot v, (g.E a).nbr = u → a = twin e := by
    intro a ha hn
    have h1 : twin a ∈ rot u := hn ▸ h.twins v a ha
    have h2 : (g.E (twin a)).nbr = v := h.owner v a ha
    rw [hru] at h1
    have : twin a = e := by
      by_contra hne
      exact (hAB (twin a) (by
        simp only [List.mem_append, List.mem_cons] at h1 ⊢; tauto)).2 h2
    exact twin_eq_iff.1 this
  have hsee : ∀ w, w ≠ v → (Sees g u w ↔ w ∈ (A ++ B).map fun e => (g.E e).nbr) := by
    intro w hw
    rw [sees_iff h, hru]
    simp only [List.map_append, List.map_cons, List.mem_append, List.mem_cons, hev]
    tauto
  refine merged_of h huv hu hv hW ⟨mergeRot_u huv, mergeRot_v⟩ hAB
    (hK ▸ List.filter_sublist.trans List.filter_sublist) ?_ hloop ?_ hfr hnb
  · intro a ha
    rw [hK, hm, List.mem_filter, List.mem_filter, hsee _ (hloop a ha)]
    simp only [ha, true_and, Bool.not_eq_true', decide_eq_false_iff_not, decide_eq_true_eq]
    constructor
    · rintro ⟨h1, h2⟩
      exact ⟨fun hn => h1 (huniq a ha hn), h2⟩
    · rintro ⟨h1, h2⟩
      exact ⟨fun hn => h1 (by rw [hn]; exact hto), h2⟩
  · intro w hwu hwv
    rw [mergeRot_of_ne hwu hwv, removeAll_cons]
    refine ⟨List.filter_sublist, ?_⟩
    intro a ha
    have hne : a ∈ removeAll (e :: H) rot w ↔ twin a ∉ H := by
      unfold removeAll
      simp only [List.mem_filter, ha, true_and, decide_eq_true_eq, List.mem_map, List.mem_cons]
      have hHv : ∀ x ∈ H, x ∈ rot v := by
        intro x hx; rw [hH] at hx
        exact (List.mem_filter.1 (List.mem_filter.1 hx).1).1
      constructor
      · intro hn ht; exact hn ⟨twin a, .inr ht, twin_div a⟩
      · rintro hn ⟨x, hx | hx, hd⟩
        · subst hx
          rcases div_eq_cases hd with rfl | h2
          · exact hwu (h.links.disj _ _ _ ha he)
          · have : a = twin x := by rw [h2, twin_twin]
            exact hwv (h.links.disj _ _ _ ha (this ▸ htv))
        · rcases div_eq_cases hd with rfl | rfl
          · exact hwv (h.links.disj _ _ _ ha (hHv _ hx))
          · exact hn hx
    rw [hne, hH, hm, List.mem_filter, List.mem_filter, hsee w hwv]
    apply not_congr
    have ho : (g.E (twin a)).nbr = w := h.owner w a ha
    simp only [decide_eq_true_eq, ho]
    constructor
    · rintro ⟨⟨h1, -⟩, h2⟩
      refine ⟨?_, h2⟩
      have := h.owner v _ h1
      rwa [twin_twin] at this
    · rintro ⟨h1, h2⟩
      refine ⟨⟨h1 ▸ h.twins w a ha, ?_⟩, h2⟩
      intro hh
      exact hwu (h.links.disj _ _ _ ha (twin_inj hh ▸ he))

/-- **C56 (adjacent).** For vertices joined by an edge, gp_IdentifyVertices ignores `before` and
merges v into u at the position of that edge, which disappears. -/
theorem C56_identify_adjacent {g : Graph} (hr : Reach g) (s : List Nat) {u v e : Nat} (before : Nat)
    (hm : Mergeable g u v) (he : g.ArcAt u e) (hev : g.getNbr e = some v)
    (hroom : s.length + listLength g v + 7 ≤ g.stackCap) :
    ∃ g' A K B, (g.withStack s).identifyVertices u v before = some (g', .ok) ∧
      HasList g u (A ++ e :: B) ∧ Merged g g' u v A K B ∧
      ((K = [] ∨ K.length = 1 ∧ B = []) → g'.restoreVertex = some (g.withStack s, .ok)) := by
  obtain ⟨rot, h⟩ := hr.inv
  obtain ⟨huv, hu, hv, hsim, hloop, hclear⟩ := mergeable_iff h hm
  have he' := h.arcAt.1 he
  have har := h.links.arc _ _ he'
  rw [getNbr_eq har.2] at hev
  have hev' : (g.E e).nbr = v := Option.some.inj hev
  obtain ⟨A, B, hru⟩ := List.append_of_mem he'
  have hW := h.weak.withStack s
  have hlen : listLength g v = (rot v).length := by
    simp [listLength, walk_eq h.links hv.2 false]
  obtain ⟨m, hmm⟩ : ∃ m : Nat → Bool, m = fun a => decide ((g.E a).nbr ∈ (A ++ B).map fun e => (g.E e).nbr) :=
    ⟨_, rfl⟩
  obtain ⟨H, hH⟩ : ∃ H, H = ((rot v).filter (· ≠ twin e)).filter m := ⟨_, rfl⟩
  obtain ⟨K, hK⟩ : ∃ K, K = ((rot v).filter (· ≠ twin e)).filter (fun e => !m e) := ⟨_, rfl⟩
  obtain ⟨n, hn⟩ : ∃ n, (g.withStack s).depth = n + 3 :=
    ⟨2 * g.eSize + 2 - 3, by show 2 * g.eSize + 2 = _; omega⟩
  obtain ⟨g0, g', f0, f1, f2, e0, e1, e2, e3, e4, e5, e6, e7, e8, e9, e10, e11, e12⟩ := contract_spec hW huv hru
    hev' hloop hsim hclear (by show s.length + _ + 7 ≤ g.stackCap; omega) hmm hH hK n
  have hstk : (g.withStack s).stack = s := rfl
  rw [hstk] at e8 e12
  have hfind : (rot u).find? (fun a => ((g.withStack s).E a).nbr = v) = some e := by
    rw [hru, List.find?_append]
    rw [hru, List.map_append, List.map_cons] at hsim
    have : A.find? (fun a => ((g.withStack s).E a).nbr = v) = none := by
      rw [List.find?_eq_none]
      intro a ha hc
      have := (List.nodup_append.1 hsim).2.2 _ (List.mem_map_of_mem (f := fun e => (g.E e).nbr) ha) (g.E e).nbr (by simp)
      exact this (by rw [hev']; exact of_decide_eq_true hc)
    rw [this]
    simp [Graph.withStack, hev']
  have hid : (g.withStack s).identifyVertices u v before = some (g'.withStack
      (v :: u :: endIn true A :: endIn false K :: endIn true K :: endIn false B ::
        s.length :: (H.reverse ++ e :: s)), .ok) := by
    unfold identifyVertices
    rw [hn, identify, neighborEdge_eq hW hu hv.1, hfind]
    simp only [Option.getD_some, Option.bind_eq_bind, Option.bind_some, e0]
    rw [if_pos (by omega), lowerBottom, e8]
    simp only [Nat.succ_ne_zero, if_false, Option.bind_some]
    rfl
  refine ⟨_, A, K, B, hid, hru ▸ hasList h.links hu.2, ?_, ?_⟩
  · exact merged_contract h huv hu.2 hv.2 hru hev' hsim hloop hmm hH hK (e1.withStack _)
      ⟨e2, e3, e4, e6, e7, e10, e11⟩ e9
  · intro hc
    rw [e12 hc s.length (by omega)]
    have h1 : g0.stack = e :: s := f1
    rw [restoreHidden, if_pos (by rw [h1]; simp)]
    simp only [pop, h1, Option.bind_eq_bind, Option.bind_some]
    rw [if_neg (by omega)]
    have : (g0.withStack s).restoreEdge e = some (g.withStack s) := by
      rw [restoreEdge_withStack, f2]; rfl
    rw [show ({ g0 with stack := s } : Graph) = g0.withStack s from rfl, this]
    simp only [Option.bind_some]
    exact restoreHidden_done _ _ _ (le_refl _)

/-- **C11 (contraction).** gp_ContractEdge(e) merges the second end of e into the first at the
position of e. If no arc has to be moved, or one arc is moved to the end of the list, then
gp_RestoreVertex undoes the merge, but it leaves `e` hidden and on the stack. -/
theorem C11_contract_partial {g : Graph} (hr : Reach g) (s : List Nat) {u v e : Nat}
    (hm : Mergeable g u v) (he : g.ArcAt u e) (hev : g.getNbr e = some v)
    (hroom : s.length + listLength g v + 7 ≤ g.stackCap) :
    ∃ g' A K B, (g.withStack s).contractEdge e = some (g', .ok) ∧
      HasList g u (A ++ e :: B) ∧ Merged g g' u v A K B ∧
      ((K = [] ∨ K.length = 1 ∧ B = []) → ∃ g0, (g.withStack (e :: s)).hideEdge e = some g0 ∧
        g'.restoreVertex = some (g0, .ok) ∧ g0.stack = e :: s) := by
  obtain ⟨rot, h⟩ := hr.inv
  obtain ⟨huv, hu, hv, hsim, hloop, hclear⟩ := mergeable_iff h hm
  have he' := h.arcAt.1 he
  have har := h.links.arc _ _ he'
  rw [getNbr_eq har.2] at hev
  have hev' : (g.E e).nbr = v := Option.some.inj hev
  obtain ⟨A, B, hru⟩ := List.append_of_mem he'
  have hW := h.weak.withStack s
  have hlen : listLength g v = (rot v).length := by
    simp [listLength, walk_eq h.links hv.2 false]
  obtain ⟨m, hmm⟩ : ∃ m : Nat → Bool, m = fun a => decide ((g.E a).nbr ∈ (A ++ B).map fun e => (g.E e).nbr) :=
    ⟨_, rfl⟩
  obtain ⟨H, hH⟩ : ∃ H, H = ((rot v).filter (· ≠ twin e)).filter m := ⟨_, rfl⟩
  obtain ⟨K, hK⟩ : ∃ K, K = ((rot v).filter (· ≠ twin e)).filter (fun e => !m e) := ⟨_, rfl⟩
  obtain ⟨n, hn⟩ : ∃ n, (g.withStack s).depth = n + 2 := ⟨2 * g.eSize, rfl⟩
  obtain ⟨g0, g', f0, f1, f2, e0, e1, e2, e3, e4, e5, e6, e7, e8, e9, e10, e11, e12⟩ := contract_spec hW huv hru
    hev' hloop hsim hclear (by show s.length + _ + 7 ≤ g.stackCap; omega) hmm hH hK n
  have hstk : (g.withStack s).stack = s := rfl
  rw [hstk] at e8 e12
  refine ⟨g', A, K, B, ?_, hru ▸ hasList h.links hu.2, ?_, ?_⟩
  · unfold contractEdge; rw [hn]; exact e0
  · exact merged_contract h huv hu.2 hv.2 hru hev' hsim hloop hmm hH hK e1
      ⟨e2, e3, e4, e6, e7, e10, e11⟩ e9
  · intro hc
    refine ⟨g0, f0, ?_, f1⟩
    rw [← withStack_self g', e8, e12 hc _ (le_refl _)]
    exact restoreHidden_done _ _ _ (by rw [f1]; simp [Graph.withStack])

/-- **C11, as stated, fails for every such contraction**: with an empty stack, gp_RestoreVertices
after gp_ContractEdge does not return OK, and `e` is never put back. -/
theorem C11_contract_restore_false {g : Graph} (hr : Reach g) {u v e : Nat}
    (hm : Mergeable g u v) (he : g.ArcAt u e) (hev : g.getNbr e = some v)
    (hroom : listLength g v + 7 ≤ g.stackCap)
    (hcase : ∀ a, g.ArcAt v a → ∀ w, g.getNbr a = some w → w = u ∨ Sees g u w) :
    ∃ g' g0, (g.withStack []).contractEdge e = some (g', .ok) ∧
      (g.withStack [e]).hideEdge e = some g0 ∧
      ∀ fuel, 2 ≤ fuel → restoreVertices fuel g' = some (g0, .notok) := by
  obtain ⟨g', A, K, B, h1, h2, h3, h4⟩ := C11_contract_partial hr [] hm he hev (by simpa using hroom)
  obtain ⟨L, hL, hsub, hmem⟩ := h3.moved
  have hK : K = [] := by
    rw [List.eq_nil_iff_forall_not_mem]
    intro a ha
    have haL := hsub.subset ha
    have hav : g.ArcAt v a := ⟨L, hL.1, haL⟩
    obtain ⟨rot, h⟩ := hr.inv
    have hn := getNbr_eq (h.links.arc _ _ (h.arcAt.1 hav)).2
    have := (hmem a haL).1 ha _ hn
    rcases hcase a hav _ hn with hh | hh
    · exact this.1 hh
    · exact this.2 hh
  obtain ⟨g0, h5, h6, h7⟩ := h4 (.inl hK)
  refine ⟨g', g0, h1, h5, ?_⟩
  intro fuel hf
  obtain ⟨fuel, rfl⟩ : ∃ f, fuel = f + 2 := ⟨fuel - 2, by omega⟩
  have hpos : g'.stack.length > 0 := by
    by_contra hn
    have : g'.restoreVertex = some (g', .notok) := by
      unfold restoreVertex; rw [if_pos (by omega)]
    rw [this] at h6; cases h6
  rw [restoreVertices, if_pos hpos, h6]
  simp only [Option.bind_eq_bind, Option.bind_some, ne_eq, not_true_eq_false, if_false]
  rw [restoreVertices, if_pos (by rw [h7]; simp)]
  have : g0.restoreVertex = some (g0, .notok) := by
    unfold restoreVertex; rw [if_pos (by rw [h7]; simp)]
  rw [this]
  simp

/-- **C10 (partial).** After gp_IdentifyVertices on non-adjacent or adjacent vertices,
gp_RestoreVertex gives back the identical graph and stack, provided that no arc of v had to be
moved, or a single one that became the last arc of u. Missing: every other case, in which the
statement is false of the code (see `C10_identify_restore_false`). -/
theorem C10_identify_restore_partial {g : Graph} (hr : Reach g) (s : List Nat) {u v before : Nat}
    (hm : Mergeable g u v) (hb : before = 0 ∨ g.ArcAt u before)
    (hroom : s.length + listLength g v + 7 ≤ g.stackCap) :
    ∃ g' A K B, (g.withStack s).identifyVertices u v before = some (g', .ok) ∧
      Merged g g' u v A K B ∧
      ((K = [] ∨ K.length = 1 ∧ B = []) → g'.restoreVertex = some (g.withStack s, .ok)) := by
  by_cases hs : Sees g u v
  · obtain ⟨e, he, hev⟩ := hs
    obtain ⟨g', A, K, B, h1, -, h2, h3⟩ := C56_identify_adjacent hr s before hm he hev hroom
    exact ⟨g', A, K, B, h1, h2, h3⟩
  · obtain ⟨g', A, K, B, h1, -, hh, h2, h3⟩ := C56_identify_apart hr s hm hs hb hroom
    refine ⟨g', A, K, B, h1, h2, fun hc => h3 (hc.imp id fun hc => ⟨hc.1, ?_⟩)⟩
    rw [hh, hc.2]; rfl

/-- Two vertices without a common neighbour: 1 - 3 and 2 - 4. -/
def twoEdges : Graph :=
  ((exec (Graph.init 4 24) [.add 1 1 3 1, .add 2 1 4 1]).map Prod.fst).getD (Graph.init 0 0)
theorem twoEdges_reach : Reach twoEdges := runOk (by decide) rfl (by decide +kernel)

/-- **C10 is false of the code.** Identify 2 with 1 in front of arc 2 and restore: every call
returns OK, but walking the list of vertex 2 now meets two arcs instead of one, because
`_RestoreVertex` does not cut the list behind the last arc it gives back. -/
theorem C10_identify_restore_false :
    ∃ g u v before g' g'', Reach g ∧ g.identifyVertices u v before = some (g', .ok) ∧
      g'.restoreVertex = some (g'', .ok) ∧ g''.walk false v ≠ g.walk false v := by
  obtain ⟨⟨g', r⟩, hg'⟩ : ∃ x, twoEdges.identifyVertices 1 2 3 = some x :=
    Option.isSome_iff_exists.1 (by decide +kernel)
  obtain ⟨⟨g'', r'⟩, hg''⟩ : ∃ x, (twoEdges.identifyVertices 1 2 3).bind (fun x => x.1.restoreVertex) = some x :=
    Option.isSome_iff_exists.1 (by decide +kernel)
  have c1 : ((twoEdges.identifyVertices 1 2 3).map Prod.snd) = some .ok := by decide +kernel
  have c2 : (((twoEdges.identifyVertices 1 2 3).bind fun x => x.1.restoreVertex).map Prod.snd) = some .ok := by
    decide +kernel
  have c3 : (((twoEdges.identifyVertices 1 2 3).bind fun x => x.1.restoreVertex).bind fun x =>
    x.1.walk false 2) = some [5, 3] := by decide +kernel
  rw [hg''] at c2 c3
  rw [hg'] at c1 hg''
  simp only [Option.map_some, Option.some.injEq, Option.bind_some] at c1 c2 c3 hg''
  refine ⟨twoEdges, 1, 2, 3, g', g'', twoEdges_reach, ?_, ?_, ?_⟩
  · rw [hg', ← c1]
  · rw [hg'', ← c2]
  · rw [c3]; decide +kernel

/-- Checkable form of the caller's obligations. -/
def mergeableB (g : Graph) (u v : Nat) : Bool :=
  1 ≤ u && u ≤ g.N + g.N && 1 ≤ v && v ≤ g.N + g.N && u ≠ v &&
  ((g.walk false u).getD []).all (fun e => ((g.walk false u).getD []).all fun e' =>
    !decide (g.getNbr e = g.getNbr e') || e = e') &&
  ((g.walk false v).getD []).all (fun e => !decide (g.getNbr e = some v)) &&
  (List.range (g.N + g.N + 1)).all (fun w => w = 0 || g.getVisited w = some false)

theorem mergeableB_sound {g : Graph} {u v : Nat} (h : mergeableB g u v = true) : Mergeable g u v := by
  simp only [mergeableB, Bool.and_eq_true, decide_eq_true_eq, List.all_eq_true, Bool.or_eq_true,
    Bool.not_eq_true', decide_eq_false_iff_not, List.mem_range] at h
  obtain ⟨⟨⟨⟨⟨⟨⟨h1, h2⟩, h3⟩, h4⟩, h5⟩, h6⟩, h7⟩, h8⟩ := h
  refine ⟨⟨⟨h1, h2⟩, ⟨h3, h4⟩, h5⟩, ?_, ?_, ?_⟩
  · rintro e e' ⟨L, hL, he⟩ ⟨L', hL', he'⟩ hn
    have : L' = L := by rw [hL] at hL'; exact (Option.some.inj hL').symm
    subst this
    rw [hL] at h6
    rcases h6 e he e' he' with hh | hh
    · exact absurd hn hh
    · exact hh
  · rintro ⟨e, ⟨L, hL, he⟩, hn⟩
    rw [hL] at h7
    exact h7 e he hn
  · rintro w ⟨hw1, hw2⟩
    rcases h8 w (by omega) with hh | hh
    · omega
    · exact hh

/-- 1 and 2 have the common neighbour 3; 2 also sees 4; with `j` they are joined too. -/
def shareOps (j : Bool) : List Op :=
  [.add 1 1 3 1, .add 2 1 3 1, .add 2 1 4 1] ++ if j then [.add 1 1 2 1] else []
def share (j : Bool) : Graph := ((exec (Graph.init 4 24) (shareOps j)).map Prod.fst).getD (Graph.init 0 0)
theorem share_reach (j) : Reach (share j) := by
  cases j
  · exact runOk (ops := shareOps false) (by decide) rfl (by decide +kernel)
  · exact runOk (ops := shareOps true) (by decide) rfl (by decide +kernel)

example : Reach (share false) ∧ Mergeable (share false) 1 2 ∧ ¬ Sees (share false) 1 2 ∧
    listLength (share false) 2 + 7 ≤ (share false).stackCap := by
  refine ⟨share_reach _, mergeableB_sound (by decide +kernel), ?_, by decide +kernel⟩
  rintro ⟨e, ⟨L, hL, he⟩, hn⟩
  have : (share false).walk false 1 = some [3] := by decide +kernel
  rw [this] at hL
  cases hL
  simp only [List.mem_singleton] at he
  subst he
  revert hn; decide +kernel

example : Reach (share true) ∧ Mergeable (share true) 1 2 ∧ (share true).ArcAt 1 9 ∧
    (share true).getNbr 9 = some 2 ∧ listLength (share true) 2 + 7 ≤ (share true).stackCap :=
  ⟨share_reach _, mergeableB_sound (by decide +kernel), arcAtB_sound (by decide +kernel),
    by decide +kernel, by decide +kernel⟩

/-- The hypotheses of `C11_contract_restore_false` are met by contracting a single edge. -/
def oneEdge : Graph := ((exec (Graph.init 2 24) [.add 1 1 2 1]).map Prod.fst).getD (Graph.init 0 0)
example : Reach oneEdge ∧ Mergeable oneEdge 1 2 ∧ oneEdge.ArcAt 1 3 ∧ oneEdge.getNbr 3 = some 2 ∧
    listLength oneEdge 2 + 7 ≤ oneEdge.stackCap ∧
    ∀ a, oneEdge.ArcAt 2 a → ∀ w, oneEdge.getNbr a = some w → w = 1 ∨ Sees oneEdge 1 w := by
  refine ⟨runOk (by decide) rfl (by decide +kernel), mergeableB_sound (by decide +kernel),
    arcAtB_sound (by decide +kernel), by decide +kernel, by decide +kernel, ?_⟩
  rintro a ⟨L, hL, ha⟩ w hn
  have : oneEdge.walk false 2 = some [2] := by decide +kernel
  rw [this] at hL
  cases hL
  simp only [List.mem_singleton] at ha
  subst ha
  have : oneEdge.getNbr 2 = some 1 := by decide +kernel
  rw [this] at hn
  exact .inl (Option.some.inj hn).symm

end Verif.Props
