import Verif.IO.SavedOps

/-
What `_ReadAdjList` has built after it has read some of the neighbours of a vertex. `out w` is the list of neighbours written
for the vertex `w`, in the order of the text.
-/
namespace Verif.Text
open Verif Verif.Graph Function

/-- Lists of neighbours that stand for a graph without loops and parallel edges. -/
structure Proper (out : Nat → List Nat) (N : Nat) : Prop where
  range : ∀ w, 1 ≤ w → w ≤ N → ∀ u ∈ out w, 1 ≤ u ∧ u ≤ N ∧ u ≠ w
  nodup : ∀ w, 1 ≤ w → w ≤ N → (out w).Nodup

/-- The direction flags of the arc of `w` that leads to `u`, once both lines have been read. -/
def dirFlag (out : Nat → List Nat) (w u : Nat) : Nat :=
  if u ∉ out w then 32 else if w ∉ out u then 64 else 0

/-- The pairs joined after the vertices before `v` and the neighbours `Q` of `v`. -/
def Joined (out : Nat → List Nat) (v : Nat) (Q : List Nat) (w u : Nat) : Prop :=
  (1 ≤ w ∧ w < v ∧ u ∈ out w) ∨ (1 ≤ u ∧ u < v ∧ w ∈ out u) ∨ (w = v ∧ u ∈ Q) ∨ (u = v ∧ w ∈ Q)

/-- The pairs whose direction is settled. -/
def Done (v : Nat) (Q : List Nat) (w u : Nat) : Prop := (w < v ∨ (w = v ∧ u ∈ Q)) ∧ (u < v ∨ (u = v ∧ w ∈ Q))

open Classical in
/-- The flags of an arc from `w` to `u`. -/
noncomputable def flagOf (out : Nat → List Nat) (v : Nat) (Q : List Nat) (w u : Nat) : Nat :=
  if Done v Q w u then dirFlag out w u else 0

/-- While the neighbours of `v` are read. -/
structure Mid (out : Nat → List Nat) (s : PGraph) (rot : Nat → List Nat) (v : Nat) (C Q : List Nat) : Prop where
  saved : Saved s.g rot v C
  info1 : ∀ e ∈ C, (s.VI (s.g.E e).nbr).visitedInfo = e
  info2 : ∀ w, w ≤ s.g.N → (s.VI w).visitedInfo ≠ 0 → (s.VI w).visitedInfo ∈ C ∧ (s.g.E (s.VI w).visitedInfo).nbr = w
  old : ∀ w, 1 ≤ w → w < v → ((rot w).map fun e => (s.g.E e).nbr).filter (· ∈ out w) = (out w).reverse
  cur : ((rot v).map fun e => (s.g.E e).nbr) = Q.reverse
  adj : ∀ w u, (∃ e, Has rot v C w e ∧ (s.g.E e).nbr = u) ↔ Joined out v Q w u
  flag : ∀ w e, Has rot v C w e → (s.g.E e).flags = flagOf out v Q w (s.g.E e).nbr

/-- Between two vertices: those before `v` have been read. -/
structure Bet (out : Nat → List Nat) (s : PGraph) (rot : Nat → List Nat) (v : Nat) : Prop where
  saved : Saved s.g rot v []
  info : ∀ w, w ≤ s.g.N → (s.VI w).visitedInfo = 0
  old : ∀ w, 1 ≤ w → w < v → ((rot w).map fun e => (s.g.E e).nbr).filter (· ∈ out w) = (out w).reverse
  adj : ∀ w u, (∃ e, e ∈ rot w ∧ (s.g.E e).nbr = u) ↔ Joined out v [] w u
  flag : ∀ w e, e ∈ rot w → (s.g.E e).flags = flagOf out v [] w (s.g.E e).nbr

variable {out : Nat → List Nat} {s : PGraph} {rot : Nat → List Nat} {v : Nat} {C Q : List Nat}

theorem setInfo_eq {w : Nat} (hw : w ≤ s.g.N) (x : Nat) :
    setInfo s w x = some { s with VI := update s.VI w { (s.VI w) with visitedInfo := x } } := by
  unfold setInfo PGraph.rdVI PGraph.wrVI
  rw [if_pos (by omega), Option.bind_eq_bind, Option.bind_some, if_pos (by omega)]

theorem getInfo_eq {w : Nat} (hw : w ≤ s.g.N) : getInfo s w = some (s.VI w).visitedInfo := by
  unfold getInfo PGraph.rdVI
  rw [if_pos (by omega)]
  rfl

/-- The arc of `C` to a vertex. -/
theorem Mid.info (h : Mid out s rot v C Q) {w e : Nat} (hw : w ≤ s.g.N) (he : e ∈ C) (hn : (s.g.E e).nbr = w) :
    (s.VI w).visitedInfo = e := hn ▸ h.info1 e he

/-! ### Noting the arcs of the saved list -/

theorem noteArcs_eq {g : Graph} (hL : Links g rot) (hnb : ∀ e ∈ rot v, (g.E e).nbr ≤ g.N) :
    ∀ (K A : List Nat) (VI : Nat → VInfo) (fuel : Nat), rot v = A ++ K → K.length ≤ fuel →
      ((K.map fun e => (g.E e).nbr).Nodup) →
      ∃ VI', noteArcs fuel ⟨g, VI⟩ (K.headD 0) = some ⟨g, VI'⟩ ∧
        (∀ e ∈ K, (VI' (g.E e).nbr).visitedInfo = e) ∧
        (∀ w, (∀ e ∈ K, (g.E e).nbr ≠ w) → VI' w = VI w) := by
  intro K
  induction K with
  | nil =>
    intro A VI fuel _ _ _
    refine ⟨VI, ?_, by simp, fun _ _ => rfl⟩
    cases fuel <;> simp [noteArcs]
  | cons a K ih =>
    intro A VI fuel hA hf hnd
    cases fuel with
    | zero => simp at hf
    | succ fuel =>
      have ha : a ∈ rot v := by rw [hA]; simp
      have hal := hL.arc v a ha
      have hnx : (g.E a).link false = K.headD 0 := by
        rw [hL.elink v false a ha, dir_false, hA]
        have : a ∉ A := by
          have := hL.nodup v
          rw [hA, List.nodup_append] at this
          intro hc
          exact this.2.2 a hc a (by simp) rfl
        rw [nextIn_append_right this, nextIn_cons_self]
      simp only [List.headD_cons]
      unfold noteArcs
      rw [if_neg (by omega)]
      simp only [getNbr_eq hal.2, Option.bind_eq_bind, Option.bind_some]
      rw [setInfo_eq (s := ⟨g, VI⟩) (hnb a ha)]
      simp only [Option.bind_some]
      rw [getAdj_eq hal.2, hnx]
      simp only [Option.bind_some]
      have hnd' := List.nodup_cons.1 (by simpa only [List.map_cons] using hnd)
      obtain ⟨VI', h1, h2, h3⟩ := ih (A ++ [a]) (update VI (g.E a).nbr { (VI (g.E a).nbr) with visitedInfo := a }) fuel
        (by simp [hA]) (by simpa using hf) hnd'.2
      refine ⟨VI', h1, ?_, ?_⟩
      · intro e he
        rcases List.mem_cons.1 he with rfl | he
        · rw [h3, update_self]
          intro e' he' hc
          exact hnd'.1 (List.mem_map.2 ⟨e', he', hc⟩)
        · exact h2 e he
      · intro w hw
        rw [h3 w fun e he => hw e (by simp [he]), update_of_ne]
        exact fun hc => hw a (by simp) hc.symm

theorem has_nil {w e : Nat} : Has rot v [] w e ↔ e ∈ rot w := by simp [Has]

/-- The neighbours of a vertex are different. -/
theorem Saved.nbrs_nodup {g : Graph} (h : Saved g rot v C) (w : Nat) : ((rot w).map fun e => (g.E e).nbr).Nodup := by
  refine List.Nodup.map_on ?_ (h.links.nodup w)
  intro e he e' he' heq
  exact h.uniq w e e' (.inl he) (.inl he') heq

/-- Saving the list of a vertex (graphIO.c 181-203). -/
theorem Bet.save (h : Bet out s rot v) (hv : 1 ≤ v ∧ v ≤ s.g.N) :
    ∃ s' rot', saveList s v = some (s', (rot v).headD 0) ∧ Mid out s' rot' v (rot v) [] ∧ s'.g.N = s.g.N ∧ s'.g.flags = s.g.flags ∧
      s'.g.M = s.g.M := by
  have hvs : v < s.g.vSize := by unfold vSize; omega
  have hS := h.saved
  have hnb : ∀ e ∈ rot v, (s.g.E e).nbr ≤ s.g.N := fun e he => (hS.small _ _ (hS.twins v e (.inl he))).2
  by_cases hne : rot v = []
  · refine ⟨s, rot, ?_, ?_, rfl, rfl, rfl⟩
    · unfold saveList
      simp only [getArc_eq hvs, Option.bind_eq_bind, Option.bind_some, hS.links.vlink v false hvs]
      simp [endIn, hne]
    · rw [hne]
      exact ⟨hS, by simp, fun w hw hc => absurd (h.info w hw) hc, h.old, by rw [hne]; rfl,
        fun w u => by simp only [has_nil]; exact h.adj w u, fun w e he => h.flag w e (has_nil.1 he)⟩
  · obtain ⟨g', hg', hS', hs⟩ := hS.save hv hne
    have h0 := hS.links.zero_not_mem v
    have hhd : (rot v).headD 0 ≠ 0 := by
      rcases headD_mem_or (L := rot v) with hh | hh
      · exact absurd hh.2 hne
      · intro hc; rw [hc] at hh; exact h0 hh
    have hlen : (rot v).length ≤ s.g.eSize := nodup_length_le (hS.links.nodup v) fun e he => (hS.links.arc v e he).2
    obtain ⟨VI', hn1, hn2, hn3⟩ := noteArcs_eq hS.links hnb (rot v) [] s.VI s.g.eSize rfl hlen (hS.nbrs_nodup v)
    refine ⟨⟨g', VI'⟩, update rot v [], ?_, ?_, hs.N, hs.flags, hs.M⟩
    · unfold saveList
      simp only [getArc_eq hvs, Option.bind_eq_bind, Option.bind_some, hS.links.vlink v false hvs]
      rw [show endIn false (rot v) = (rot v).headD 0 from rfl, if_neg hhd, show noteArcs s.g.eSize s _ = _ from hn1]
      simp only [Option.bind_some]
      rw [getArc_eq hvs, hS.links.vlink v true hvs]
      simp only [Option.bind_some]
      simp only [Option.bind_eq_bind] at hg'
      revert hg'
      cases s.g.setAdj ((rot v).headD 0) true (endIn true (rot v)) with
      | none => simp
      | some g1 =>
        simp only [Option.bind_some]
        cases g1.setAdj (endIn true (rot v)) false ((rot v).headD 0) with
        | none => simp
        | some g2 =>
          simp only [Option.bind_some]
          cases g2.setArc v false 0 with
          | none => simp
          | some g3 =>
            simp only [Option.bind_some]
            intro hg'
            rw [hg']
            rfl
    · have hm : ∀ w e, Has (update rot v []) v (rot v) w e ↔ e ∈ rot w := by
        intro w e
        unfold Has
        by_cases hw : w = v
        · subst hw; rw [update_self]; simp
        · rw [update_of_ne hw]; simp [hw]
      have hE : ∀ e, (g'.E e).nbr = (s.g.E e).nbr := hs.nbr
      refine ⟨hS', ?_, ?_, ?_, ?_, ?_, ?_⟩
      · intro e he
        show (VI' (g'.E e).nbr).visitedInfo = e
        rw [hE]; exact hn2 e he
      · intro w hw hc
        change w ≤ g'.N at hw
        rw [hs.N] at hw
        show (VI' w).visitedInfo ∈ rot v ∧ (g'.E (VI' w).visitedInfo).nbr = w
        by_cases hex : ∃ e ∈ rot v, (s.g.E e).nbr = w
        · obtain ⟨e, he, hew⟩ := hex
          have := hn2 e he
          rw [hew] at this
          rw [this, hE]
          exact ⟨he, hew⟩
        · exfalso
          push Not at hex
          change (VI' w).visitedInfo ≠ 0 at hc
          rw [hn3 w hex, h.info w hw] at hc
          exact hc rfl
      · intro w h1 h2
        show ((update rot v [] w).map fun e => (g'.E e).nbr).filter _ = _
        rw [update_of_ne (by omega)]
        simp only [hE]
        exact h.old w h1 h2
      · show ((update rot v [] v).map fun e => (g'.E e).nbr) = _
        rw [update_self]; rfl
      · intro w u
        simp only [hm]
        show (∃ e, e ∈ rot w ∧ (g'.E e).nbr = u) ↔ _
        simp only [hE]
        exact h.adj w u
      · intro w e he
        show (g'.E e).flags = flagOf out v [] w (g'.E e).nbr
        rw [hE, hs.eflags]
        exact h.flag w e ((hm w e).1 he)

/-- An arc of `v` to an untreated vertex is in the saved list. -/
theorem Mid.saved_of (h : Mid out s rot v C Q) {e : Nat} (he : Has rot v C v e) (hq : (s.g.E e).nbr ∉ Q) : e ∈ C := by
  rcases he with he | he
  · exfalso
    have : (s.g.E e).nbr ∈ ((rot v).map fun e => (s.g.E e).nbr) := List.mem_map.2 ⟨e, he, rfl⟩
    rw [h.cur] at this
    exact hq (by simpa using this)
  · exact he.2

/-- A saved arc leads to an untreated vertex. -/
theorem Mid.nbr_saved (h : Mid out s rot v C Q) {e : Nat} (he : e ∈ C) : (s.g.E e).nbr ∉ Q := by
  intro hq
  have : (s.g.E e).nbr ∈ ((rot v).map fun e => (s.g.E e).nbr) := by rw [h.cur]; simpa using hq
  obtain ⟨e', he', hee⟩ := List.mem_map.1 this
  have := h.saved.uniq v e' e (.inl he') (.inr ⟨rfl, he⟩) hee
  subst this
  exact h.saved.apart e' he v he'

theorem flagOf_other {Q Q' : List Nat} {w u x : Nat} (hQ : ∀ y, y ∈ Q' ↔ y = x ∨ y ∈ Q) (h1 : ¬ (w = v ∧ u = x))
    (h2 : ¬ (u = v ∧ w = x)) : flagOf out v Q' w u = flagOf out v Q w u := by
  have : Done v Q' w u ↔ Done v Q w u := by
    unfold Done
    rw [hQ, hQ]
    tauto
  unfold flagOf
  by_cases hd : Done v Q w u
  · rw [if_pos hd, if_pos (this.2 hd)]
  · rw [if_neg hd, if_neg (fun hc => hd (this.1 hc))]

/-- Pulling an arc out of the saved list, after which the direction may be set. -/
theorem Mid.pulled (h : Mid out s rot v C Q) {e u : Nat} (he : e ∈ C) (hu : (s.g.E e).nbr = u) :
    ∃ g1 g', takeOut s.g (C.headD 0) e = some (g1, (without e C).headD 0) ∧ attachFirst g1 v e = some g' ∧
      Saved g' (update rot v (e :: rot v)) v (without e C) ∧ SameBut s.g g' ∧
      (∀ w a, Has (update rot v (e :: rot v)) v (without e C) w a ↔ Has rot v C w a) := by
  obtain ⟨g1, g', h1, h2, h3, h4⟩ := h.saved.pull he
  refine ⟨g1, g', h1, h2, h3, h4, ?_⟩
  intro w y
  unfold Has
  by_cases hw : w = v
  · subst hw
    rw [update_self, List.mem_cons, mem_without]
    constructor
    · rintro ((rfl | h1) | ⟨-, h2, -⟩)
      · exact .inr ⟨rfl, he⟩
      · exact .inl h1
      · exact .inr ⟨rfl, h2⟩
    · rintro (h1 | ⟨-, h2⟩)
      · exact .inl (.inr h1)
      · by_cases hy : y = e
        · exact .inl (.inl hy)
        · exact .inr ⟨rfl, h2, hy⟩
  · rw [update_of_ne hw]; simp [hw]

/-- What is left to show after a step that settles the vertex `u`, joined to `v` before. -/
theorem Mid.settle (h : Mid out s rot v C Q) {e u : Nat} (he : e ∈ C) (hu : (s.g.E e).nbr = u) (huv : u < v) {g' : Graph}
    (hS : Saved g' (update rot v (e :: rot v)) v (without e C))
    (hm : ∀ w a, Has (update rot v (e :: rot v)) v (without e C) w a ↔ Has rot v C w a) (hN : g'.N = s.g.N)
    (hnb : ∀ a, (g'.E a).nbr = (s.g.E a).nbr)
    (hf : ∀ w a, Has rot v C w a → (g'.E a).flags = if a = e then dirFlag out v u else if a = twin e then dirFlag out u v
      else (s.g.E a).flags) :
    Mid out ⟨g', update s.VI u { (s.VI u) with visitedInfo := 0 }⟩ (update rot v (e :: rot v)) v (without e C) (Q ++ [u]) := by
  have hHe : Has rot v C v e := .inr ⟨rfl, he⟩
  have hte := h.saved.twins v e hHe
  have htn := h.saved.owner v e hHe
  rw [hu] at hte
  refine ⟨hS, ?_, ?_, ?_, ?_, ?_, ?_⟩
  · intro a ha
    show ((update s.VI u _) (g'.E a).nbr).visitedInfo = a
    rw [mem_without] at ha
    rw [hnb, update_of_ne, h.info1 a ha.1]
    intro hc
    exact ha.2 (h.saved.uniq v a e (.inr ⟨rfl, ha.1⟩) hHe (hc.trans hu.symm))
  · intro w hw hc
    change w ≤ g'.N at hw
    rw [hN] at hw
    change ((update s.VI u _) w).visitedInfo ≠ 0 at hc
    show ((update s.VI u _) w).visitedInfo ∈ _ ∧ (g'.E ((update s.VI u _) w).visitedInfo).nbr = w
    by_cases hwu : w = u
    · subst hwu; rw [update_self] at hc; exact absurd rfl hc
    · rw [update_of_ne hwu] at hc ⊢
      obtain ⟨h1, h2⟩ := h.info2 w hw hc
      rw [hnb, mem_without]
      refine ⟨⟨h1, ?_⟩, h2⟩
      intro hce
      rw [hce, hu] at h2
      exact hwu h2.symm
  · intro w h1 h2
    show ((update rot v (e :: rot v) w).map fun e => (g'.E e).nbr).filter _ = _
    rw [update_of_ne (by omega)]
    simp only [hnb]
    exact h.old w h1 h2
  · show ((update rot v (e :: rot v) v).map fun e => (g'.E e).nbr) = _
    rw [update_self]
    simp only [hnb, List.map_cons, h.cur, hu]
    simp
  · intro w x
    show (∃ a, Has _ v _ w a ∧ (g'.E a).nbr = x) ↔ _
    simp only [hm, hnb]
    rw [h.adj]
    have hj : Joined out v Q v u := (h.adj v u).1 ⟨e, hHe, hu⟩
    have hj' : 1 ≤ u ∧ u < v ∧ v ∈ out u := by
      have hq := h.nbr_saved he
      rw [hu] at hq
      unfold Joined at hj
      rcases hj with hj | hj | hj | hj
      · omega
      · exact hj
      · exact absurd hj.2 hq
      · omega
    unfold Joined
    simp only [List.mem_append, List.mem_singleton]
    constructor
    · tauto
    · rintro (h1 | h1 | ⟨rfl, h1 | rfl⟩ | ⟨rfl, h1 | rfl⟩)
      · exact .inl h1
      · exact .inr (.inl h1)
      · exact .inr (.inr (.inl ⟨rfl, h1⟩))
      · exact .inr (.inl hj')
      · exact .inr (.inr (.inr ⟨rfl, h1⟩))
      · exact .inl hj'
  · intro w a ha
    rw [hm] at ha
    show (g'.E a).flags = flagOf out v (Q ++ [u]) w (g'.E a).nbr
    rw [hnb, hf w a ha]
    have hQ : ∀ y, y ∈ Q ++ [u] ↔ y = u ∨ y ∈ Q := by intro y; simp [or_comm]
    have hd1 : Done v (Q ++ [u]) v u := ⟨.inr ⟨rfl, by simp⟩, .inl huv⟩
    have hd2 : Done v (Q ++ [u]) u v := ⟨.inl huv, .inr ⟨rfl, by simp⟩⟩
    by_cases h1 : a = e
    · subst h1
      rw [if_pos rfl]
      have : w = v := by rw [← h.saved.owner w a ha, htn]
      subst this
      unfold flagOf
      rw [hu, if_pos hd1]
    · rw [if_neg h1]
      by_cases h2 : a = twin e
      · rw [if_pos h2]
        have : w = u := by rw [← h.saved.owner w a ha, h2, twin_twin, hu]
        subst this
        unfold flagOf
        rw [h2, htn, if_pos hd2]
      · rw [if_neg h2, flagOf_other hQ]
        · exact h.flag w a ha
        · rintro ⟨rfl, h3⟩
          exact h1 (h.saved.uniq w a e ha hHe (h3.trans hu.symm))
        · rintro ⟨h3, rfl⟩
          exact h2 (h.saved.uniq w a (twin e) ha hte (h3.trans htn.symm))

/-- A new edge from `v` to `u`. -/
theorem Mid.join (h : Mid out s rot v C Q) {u : Nat} (hv : 1 ≤ v ∧ v ≤ s.g.N) (hu : 1 ≤ u ∧ u ≤ s.g.N) (huv : u ≠ v)
    (hq : u ∉ Q) (hn : ¬ Joined out v Q v u) {g' : Graph}
    (hS : Saved g' (addRot rot v u (2 + 2 * s.g.M)) v C) (hN : g'.N = s.g.N)
    (hnb : ∀ e, (g'.E e).nbr = if e = 2 + 2 * s.g.M then v else if e = twin (2 + 2 * s.g.M) then u else (s.g.E e).nbr)
    (hf : ∀ e, (g'.E e).flags = if e = 2 + 2 * s.g.M then flagOf out v (Q ++ [u]) u v else
      if e = twin (2 + 2 * s.g.M) then flagOf out v (Q ++ [u]) v u else (s.g.E e).flags) (hvu : u < v → v ∉ out u) :
    Mid out ⟨g', s.VI⟩ (addRot rot v u (2 + 2 * s.g.M)) v C (Q ++ [u]) := by
  obtain ⟨x, hx⟩ : ∃ x, x = 2 + 2 * s.g.M := ⟨_, rfl⟩
  rw [← hx] at hS hnb hf ⊢
  have hm : ∀ w e, Has (addRot rot v u x) v C w e ↔ (e = twin x ∧ w = v) ∨ (e = x ∧ w = u) ∨ Has rot v C w e :=
    fun w e => has_addRot (Ne.symm huv)
  have htx := twin_ne x
  have htw : twin x = x + 1 := by rw [twin_eq, if_pos (by omega)]
  have hne : ∀ w e, Has rot v C w e → e ≠ x ∧ e ≠ twin x := by
    intro w e he
    have := h.saved.below w e he
    omega
  have hold : ∀ w e, Has rot v C w e → (g'.E e).nbr = (s.g.E e).nbr := by
    intro w e he
    rw [hnb, if_neg (hne w e he).1, if_neg (hne w e he).2]
  have hmap : ∀ w, ((rot w).map fun e => (g'.E e).nbr) = (rot w).map fun e => (s.g.E e).nbr := by
    intro w
    refine List.map_congr_left fun e he => hold w e (.inl he)
  have hxn : (g'.E x).nbr = v := by rw [hnb, if_pos rfl]
  have htn : (g'.E (twin x)).nbr = u := by rw [hnb, if_neg htx, if_pos rfl]
  refine ⟨hS, ?_, ?_, ?_, ?_, ?_, ?_⟩
  · intro e he
    show (s.VI (g'.E e).nbr).visitedInfo = e
    rw [hold v e (.inr ⟨rfl, he⟩)]
    exact h.info1 e he
  · intro w hw hc
    change w ≤ g'.N at hw
    rw [hN] at hw
    obtain ⟨h1, h2⟩ := h.info2 w hw hc
    refine ⟨h1, ?_⟩
    show (g'.E _).nbr = w
    rw [hold v _ (.inr ⟨rfl, h1⟩)]
    exact h2
  · intro w h1 h2
    show ((addRot rot v u x w).map fun e => (g'.E e).nbr).filter _ = _
    unfold addRot
    by_cases hwu : w = u
    · subst hwu
      rw [update_self, List.map_cons, hxn, List.filter_cons_of_neg (by simpa using hvu h2), hmap]
      exact h.old w h1 h2
    · rw [update_of_ne hwu, update_of_ne (by omega), hmap]
      exact h.old w h1 h2
  · show ((addRot rot v u x v).map fun e => (g'.E e).nbr) = _
    unfold addRot
    rw [update_of_ne (Ne.symm huv), update_self, List.map_cons, htn, hmap, h.cur]
    simp
  · intro w y
    show (∃ e, Has _ v _ w e ∧ (g'.E e).nbr = y) ↔ _
    have h1 : (∃ e, Has (addRot rot v u x) v C w e ∧ (g'.E e).nbr = y) ↔ (w = v ∧ y = u) ∨ (w = u ∧ y = v) ∨ Joined out v Q w y := by
      rw [← h.adj]
      constructor
      · rintro ⟨e, he, hy⟩
        rcases (hm w e).1 he with ⟨rfl, rfl⟩ | ⟨rfl, rfl⟩ | he
        · exact .inl ⟨rfl, by rw [← hy, htn]⟩
        · exact .inr (.inl ⟨rfl, by rw [← hy, hxn]⟩)
        · exact .inr (.inr ⟨e, he, by rw [← hold w e he]; exact hy⟩)
      · rintro (⟨rfl, rfl⟩ | ⟨rfl, rfl⟩ | ⟨e, he, hy⟩)
        · exact ⟨twin x, (hm _ _).2 (.inl ⟨rfl, rfl⟩), htn⟩
        · exact ⟨x, (hm _ _).2 (.inr (.inl ⟨rfl, rfl⟩)), hxn⟩
        · exact ⟨e, (hm _ _).2 (.inr (.inr he)), by rw [hold w e he]; exact hy⟩
    rw [h1]
    unfold Joined
    simp only [List.mem_append, List.mem_singleton]
    constructor
    · rintro (⟨rfl, rfl⟩ | ⟨rfl, rfl⟩ | h1 | h1 | h1 | h1)
      · exact .inr (.inr (.inl ⟨rfl, .inr rfl⟩))
      · exact .inr (.inr (.inr ⟨rfl, .inr rfl⟩))
      · exact .inl h1
      · exact .inr (.inl h1)
      · exact .inr (.inr (.inl ⟨h1.1, .inl h1.2⟩))
      · exact .inr (.inr (.inr ⟨h1.1, .inl h1.2⟩))
    · rintro (h1 | h1 | ⟨h1, h2 | h2⟩ | ⟨h1, h2 | h2⟩)
      · exact .inr (.inr (.inl h1))
      · exact .inr (.inr (.inr (.inl h1)))
      · exact .inr (.inr (.inr (.inr (.inl ⟨h1, h2⟩))))
      · exact .inl ⟨h1, h2⟩
      · exact .inr (.inr (.inr (.inr (.inr ⟨h1, h2⟩))))
      · exact .inr (.inl ⟨h2, h1⟩)
  · intro w e he
    show (g'.E e).flags = flagOf out v (Q ++ [u]) w (g'.E e).nbr
    rw [hf]
    rcases (hm w e).1 he with ⟨rfl, rfl⟩ | ⟨rfl, rfl⟩ | he1
    · rw [if_neg htx, if_pos rfl, htn]
    · rw [if_pos rfl, hxn]
    · clear he
      rename Has rot v C w e => he
      rw [if_neg (hne w e he).1, if_neg (hne w e he).2, hold w e he, h.flag w e he]
      have hQ : ∀ y, y ∈ Q ++ [u] ↔ y = u ∨ y ∈ Q := by intro y; simp [or_comm]
      rw [flagOf_other hQ]
      · rintro ⟨rfl, h3⟩
        exact hn ((h.adj w u).1 ⟨e, he, h3⟩)
      · rintro ⟨h3, rfl⟩
        have := h.saved.twins w e he
        rw [h3] at this
        exact hn ((h.adj v w).1 ⟨twin e, this, h.saved.owner w e he⟩)

/-- The step for one neighbour (graphIO.c 225-276). -/
theorem Mid.step (h : Mid out s rot v C Q) (hp : Proper out s.g.N) (hv : 1 ≤ v ∧ v ≤ s.g.N) {u : Nat} (hu : u ∈ out v) (hq : u ∉ Q) :
    ∃ s' rot' C', neighborStep s v (C.headD 0) u = some (s', C'.headD 0, .ok) ∧ Mid out s' rot' v C' (Q ++ [u]) ∧
      s'.g.N = s.g.N ∧ s'.g.flags = s.g.flags := by
  have hur := hp.range v hv.1 hv.2 u hu
  unfold neighborStep
  rw [if_neg (by omega), if_neg (by omega)]
  have hnotq : ∀ Q' : List Nat, Q' = Q → ¬ (v = v ∧ u ∈ Q') := by rintro _ rfl ⟨-, hc⟩; exact hq hc
  by_cases hlt : v < u
  · rw [if_pos (by omega)]
    have hnj : ¬ Joined out v Q v u := by
      unfold Joined
      rintro (hc | hc | hc | hc)
      · omega
      · omega
      · exact hq hc.2
      · omega
    obtain ⟨g', h1, h2, h3, -, h4, h5, h6, -⟩ := h.saved.dynAdd hv ⟨hur.1, hur.2.1⟩ (Ne.symm hur.2.2)
      (fun e he hc => hnj ((h.adj v u).1 ⟨e, he, hc⟩))
    rw [h1]
    refine ⟨⟨g', s.VI⟩, _, C, rfl, h.join hv ⟨hur.1, hur.2.1⟩ hur.2.2 hq hnj h2 h3 h5 ?_ (fun hc => by omega), h3, h4⟩
    intro e
    rw [h6]
    have hz : ∀ w y, (∀ w, ¬ Has rot v C w y) → (¬ Done v (Q ++ [u]) w v ∨ True) → (s.g.E y).flags = 0 := by
      intro _ y hy _
      rw [h.saved.zero y hy]
    have hd1 : flagOf out v (Q ++ [u]) u v = 0 := by
      unfold flagOf
      rw [if_neg]
      rintro ⟨h1 | h1, -⟩ <;> omega
    have hd2 : flagOf out v (Q ++ [u]) v u = 0 := by
      unfold flagOf
      rw [if_neg]
      rintro ⟨-, h1 | h1⟩ <;> omega
    rw [hd1, hd2]
    by_cases he : e = 2 + 2 * s.g.M
    · rw [if_pos he]
      exact hz 0 e (fun w hw => by have := h.saved.below w e hw; omega) (.inr trivial)
    · rw [if_neg he]
      by_cases he' : e = twin (2 + 2 * s.g.M)
      · rw [if_pos he']
        refine hz 0 e (fun w hw => ?_) (.inr trivial)
        have := h.saved.below w e hw
        rw [twin_eq, if_pos (by omega)] at he'
        omega
      · rw [if_neg he']
  · rw [if_neg (by omega)]
    have huv : u < v := by omega
    rw [Int.toNat_natCast, getInfo_eq hur.2.1]
    simp only [Option.bind_eq_bind, Option.bind_some]
    by_cases hi : (s.VI u).visitedInfo = 0
    · rw [if_neg (by simp [hi])]
      have hnj : ¬ Joined out v Q v u := by
        intro hc
        obtain ⟨e, he, hn⟩ := (h.adj v u).2 hc
        have heC := h.saved_of he (hn ▸ hq)
        have := h.info hur.2.1 heC hn
        rw [hi] at this
        have h2 := (h.saved.below v e he).1
        omega
      have hvo : v ∉ out u := fun hc => hnj (.inr (.inl ⟨hur.1, huv, hc⟩))
      obtain ⟨g', h1, h2, h3, -, h4, h5, h6, -⟩ := h.saved.dynAdd hv ⟨hur.1, hur.2.1⟩ (Ne.symm hur.2.2)
        (fun e he hc => hnj ((h.adj v u).1 ⟨e, he, hc⟩))
      unfold addDirected
      rw [h1]
      simp only [Option.bind_eq_bind, Option.bind_some, ne_eq, not_true_eq_false, if_false]
      have hx : Has (addRot rot v u (2 + 2 * s.g.M)) v C u (2 + 2 * s.g.M) :=
        (has_addRot (Ne.symm hur.2.2)).2 (.inr (.inl ⟨rfl, rfl⟩))
      have hfirst : g'.getArc u false = some (2 + 2 * s.g.M) := by
        have hvs : u < g'.vSize := by unfold vSize; omega
        rw [getArc_eq hvs, h2.links.vlink u false hvs]
        unfold addRot
        rw [update_self]
        rfl
      rw [hfirst]
      simp only [Option.bind_some]
      obtain ⟨g'', k1, k2, k3, k4, k5, k6, k7, k8⟩ := h2.direct hx
      rw [k1]
      refine ⟨⟨g'', s.VI⟩, _, C, rfl, h.join hv ⟨hur.1, hur.2.1⟩ hur.2.2 hq hnj k2 (k3.trans h3) ?_ ?_ (fun _ => hvo), k3.trans h3,
        k5.trans h4⟩
      · intro e; rw [k7, h5]
      · intro e
        rw [k8, h6]
        have hd1 : flagOf out v (Q ++ [u]) u v = 32 := by
          unfold flagOf
          rw [if_pos ⟨.inl huv, .inr ⟨rfl, by simp⟩⟩]
          unfold dirFlag
          rw [if_pos hvo]
        have hd2 : flagOf out v (Q ++ [u]) v u = 64 := by
          unfold flagOf
          rw [if_pos ⟨.inr ⟨rfl, by simp⟩, .inl huv⟩]
          unfold dirFlag
          rw [if_neg (by simpa using hu), if_pos hvo]
        rw [hd1, hd2]
        by_cases he : e = 2 + 2 * s.g.M
        · rw [if_pos he, if_pos he]
          have : s.g.E e = {} := h.saved.zero e (fun w hw => by have := h.saved.below w e hw; omega)
          rw [this]; rfl
        · rw [if_neg he, if_neg he]
          by_cases he' : e = twin (2 + 2 * s.g.M)
          · rw [if_pos he', if_pos he']
            have : s.g.E e = {} := h.saved.zero e (fun w hw => by
              have := h.saved.below w e hw
              rw [twin_eq, if_pos (by omega)] at he'
              omega)
            rw [this]; rfl
          · rw [if_neg he', if_neg he']
    · rw [if_pos hi]
      obtain ⟨heC, hen⟩ := h.info2 u hur.2.1 hi
      obtain ⟨e, hee⟩ : ∃ e, e = (s.VI u).visitedInfo := ⟨_, rfl⟩
      rw [← hee] at heC hen ⊢
      obtain ⟨g1, g', h1, h2, h3, h4, h5⟩ := h.pulled heC hen
      unfold pullArc
      rw [setInfo_eq hur.2.1]
      simp only [Option.bind_eq_bind, Option.bind_some]
      rw [h1]
      simp only [Option.bind_some]
      rw [h2]
      simp only [Option.bind_some]
      have hj : 1 ≤ u ∧ u < v ∧ v ∈ out u := by
        have hj := (h.adj v u).1 ⟨e, .inr ⟨rfl, heC⟩, hen⟩
        unfold Joined at hj
        rcases hj with hj | hj | hj | hj
        · omega
        · exact hj
        · exact absurd hj.2 hq
        · omega
      have hd1 : dirFlag out v u = 0 := by
        unfold dirFlag
        rw [if_neg (by simpa using hu), if_neg (by simpa using hj.2.2)]
      have hd2 : dirFlag out u v = 0 := by
        unfold dirFlag
        rw [if_neg (by simpa using hj.2.2), if_neg (by simpa using hu)]
      have hnd1 : ¬ Done v Q v u := by rintro ⟨hc | hc, -⟩; omega; exact hq hc.2
      have hnd2 : ¬ Done v Q u v := by rintro ⟨-, hc | hc⟩; omega; exact hq hc.2
      refine ⟨_, _, without e C, rfl, h.settle heC hen huv h3 h5 h4.N h4.nbr ?_, h4.N, h4.flags⟩
      intro w a ha
      rw [h4.eflags, hd1, hd2]
      have hHe : Has rot v C v e := .inr ⟨rfl, heC⟩
      by_cases he1 : a = e
      · rw [if_pos he1, he1, h.flag v e hHe, hen]
        unfold flagOf
        rw [if_neg hnd1]
      · rw [if_neg he1]
        by_cases he2 : a = twin e
        · rw [if_pos he2, he2]
          have := h.saved.twins v e hHe
          rw [hen] at this
          rw [h.flag u _ this, h.saved.owner v e hHe]
          unfold flagOf
          rw [if_neg hnd2]
        · rw [if_neg he2]

/-- The arcs left in the saved list (graphIO.c 284-299). -/
theorem Mid.rest (hv : 1 ≤ v) : ∀ (n : Nat) {s : PGraph} {rot : Nat → List Nat} {C Q : List Nat}, Mid out s rot v C Q →
    C.length = n → (∀ u ∈ out v, u ∈ Q) → ∀ fuel, C.length ≤ fuel →
    ∃ s' rot' R, leftOver v fuel s (C.headD 0) = some s' ∧ Mid out s' rot' v [] (Q ++ R) ∧ (∀ u ∈ R, u ∉ out v ∧ 1 ≤ u ∧ u < v ∧ v ∈ out u) ∧
      s'.g.N = s.g.N ∧ s'.g.flags = s.g.flags := by
  intro n
  induction n with
  | zero =>
    intro s rot C Q h hl hQ fuel hf
    have : C = [] := List.length_eq_zero_iff.1 hl
    subst this
    refine ⟨s, rot, [], ?_, by simpa using h, by simp, rfl, rfl⟩
    cases fuel <;> simp [leftOver]
  | succ n ih =>
    intro s rot C Q h hl hQ fuel hf
    cases C with
    | nil => simp at hl
    | cons e C =>
      cases fuel with
      | zero => simp at hf
      | succ fuel =>
        have heC : e ∈ e :: C := by simp
        have hHe : Has rot v (e :: C) v e := .inr ⟨rfl, heC⟩
        have hsm := h.saved.small _ _ (h.saved.twins v e hHe)
        have hvs := h.saved.small _ _ hHe
        obtain ⟨u, hu⟩ : ∃ u, (s.g.E e).nbr = u := ⟨_, rfl⟩
        rw [hu] at hsm
        have hq : u ∉ Q := by have := h.nbr_saved heC; rwa [hu] at this
        have huo : u ∉ out v := fun hc => hq (hQ u hc)
        have hj : 1 ≤ u ∧ u < v ∧ v ∈ out u := by
          have hj := (h.adj v u).1 ⟨e, hHe, hu⟩
          unfold Joined at hj
          rcases hj with hj | hj | hj | hj
          · omega
          · exact hj
          · exact absurd hj.2 hq
          · have := h.saved.loop v e hHe
            exact absurd (hu.trans hj.1) this
        obtain ⟨g1, g', h1, h2, h3, h4, h5⟩ := h.pulled heC hu
        have hHe' : Has (update rot v (e :: rot v)) v (without e (e :: C)) v e := (h5 v e).2 hHe
        obtain ⟨g'', k1, k2, k3, k4, k5, k6, k7, k8⟩ := h3.direct hHe'
        have hw : without e (e :: C) = C := by
          rw [without_cons_self, without_of_not_mem (List.nodup_cons.1 h.saved.nodup).1]
        have hd1 : dirFlag out v u = 32 := by
          unfold dirFlag
          rw [if_pos huo]
        have hd2 : dirFlag out u v = 64 := by
          unfold dirFlag
          rw [if_neg (by simpa using hj.2.2), if_pos huo]
        have hnd1 : ¬ Done v Q v u := by rintro ⟨hc | hc, -⟩; omega; exact hq hc.2
        have hnd2 : ¬ Done v Q u v := by rintro ⟨-, hc | hc⟩; omega; exact hq hc.2
        have hmid := h.settle heC hu hj.2.1 k2 h5 (k3.trans h4.N) (fun a => (k7 a).trans (h4.nbr a)) (by
          intro w a ha
          rw [k8, h4.eflags, hd1, hd2]
          by_cases he1 : a = e
          · rw [if_pos he1, if_pos he1, he1, h.flag v e hHe, hu]
            unfold flagOf
            rw [if_neg hnd1]
            rfl
          · rw [if_neg he1, if_neg he1]
            by_cases he2 : a = twin e
            · rw [if_pos he2, if_pos he2, he2]
              have := h.saved.twins v e hHe
              rw [hu] at this
              rw [h.flag u _ this, h.saved.owner v e hHe]
              unfold flagOf
              rw [if_neg hnd2]
              rfl
            · rw [if_neg he2, if_neg he2])
        rw [hw] at hmid
        obtain ⟨s', rot', R, i1, i2, i3, i4, i5⟩ := ih hmid (by simpa using hl) (fun y hy => by simp [hQ y hy]) fuel (by simpa using hf)
        refine ⟨s', rot', u :: R, ?_, by simpa using i2, ?_, i4.trans (k3.trans h4.N), i5.trans (k5.trans h4.flags)⟩
        · rw [List.headD_cons]
          unfold leftOver
          have he0 : e ≠ 0 := by have := (h.saved.below v e hHe).1; omega
          rw [if_neg he0, getNbr_eq (h.saved.lt hHe), hu]
          simp only [Option.bind_eq_bind, Option.bind_some]
          rw [setInfo_eq hsm.2]
          simp only [Option.bind_some]
          simp only [List.headD_cons] at h1
          rw [h1]
          simp only [Option.bind_some]
          rw [h2]
          simp only [Option.bind_some]
          rw [k1, hw]
          exact i1
        · intro y hy
          rcases List.mem_cons.1 hy with rfl | hy
          · exact ⟨huo, hj⟩
          · exact i3 y hy

/-- All neighbours of `v` and its left arcs have been treated. -/
theorem Mid.finish (h : Mid out s rot v [] (out v ++ Q)) (hp : Proper out s.g.N) (hv : 1 ≤ v ∧ v ≤ s.g.N)
    (hQ : ∀ u ∈ Q, u ∉ out v ∧ 1 ≤ u ∧ u < v ∧ v ∈ out u) : Bet out s rot (v + 1) := by
  have hS := h.saved
  refine ⟨?_, ?_, ?_, ?_, ?_⟩
  · have : ∀ w e, Has rot (v + 1) [] w e ↔ Has rot v [] w e := fun w e => by rw [has_nil, has_nil]
    exact hS.move (SameBut.refl _) hS.links this List.nodup_nil (by simp) (by simp) (fun _ _ => rfl)
  · intro w hw
    by_contra hc
    have := (h.info2 w hw hc).1
    simp at this
  · intro w h1 h2
    by_cases hwv : w = v
    · subst hwv
      rw [h.cur, List.reverse_append, List.filter_append]
      have e1 : Q.reverse.filter (· ∈ out w) = [] := by
        rw [List.filter_eq_nil_iff]
        intro y hy
        simpa using (hQ y (by simpa using hy)).1
      have e2 : (out w).reverse.filter (· ∈ out w) = (out w).reverse := by
        rw [List.filter_eq_self]
        intro y hy
        simpa using hy
      rw [e1, e2]
      rfl
    · exact h.old w h1 (by omega)
  · intro w u
    have := h.adj w u
    simp only [has_nil] at this
    rw [this]
    unfold Joined
    simp only [List.mem_append, List.not_mem_nil, and_false, or_false]
    constructor
    · rintro (⟨a, b, c⟩ | ⟨a, b, c⟩ | ⟨rfl, h1 | h1⟩ | ⟨rfl, h1 | h1⟩)
      · exact .inl ⟨a, by omega, c⟩
      · exact .inr ⟨a, by omega, c⟩
      · exact .inl ⟨hv.1, by omega, h1⟩
      · have := hQ u h1; exact .inr ⟨this.2.1, by omega, this.2.2.2⟩
      · exact .inr ⟨hv.1, by omega, h1⟩
      · have := hQ w h1; exact .inl ⟨this.2.1, by omega, this.2.2.2⟩
    · rintro (⟨a, b, c⟩ | ⟨a, b, c⟩)
      · by_cases hwv : w = v
        · subst hwv; exact .inr (.inr (.inl ⟨rfl, .inl c⟩))
        · exact .inl ⟨a, by omega, c⟩
      · by_cases hwv : u = v
        · subst hwv; exact .inr (.inr (.inr ⟨rfl, .inl c⟩))
        · exact .inr (.inl ⟨a, by omega, c⟩)
  · intro w e he
    rw [h.flag w e (.inl he)]
    have hiff : Done v (out v ++ Q) w (s.g.E e).nbr ↔ Done (v + 1) [] w (s.g.E e).nbr := by
      have hin : ∀ a, a ∈ rot v → (s.g.E a).nbr ∈ out v ++ Q := by
        intro a ha
        have : (s.g.E a).nbr ∈ ((rot v).map fun e => (s.g.E e).nbr) := List.mem_map.2 ⟨a, ha, rfl⟩
        rw [h.cur, List.mem_reverse] at this
        exact this
      have h1 : w = v → (s.g.E e).nbr ∈ out v ++ Q := by rintro rfl; exact hin e he
      have h2 : (s.g.E e).nbr = v → w ∈ out v ++ Q := by
        intro hc
        have h3 := (has_nil (rot := rot) (v := v)).1 (hS.twins w e (.inl he))
        rw [hc] at h3
        have := hin _ h3
        rwa [hS.owner w e (.inl he)] at this
      unfold Done
      simp only [List.not_mem_nil, and_false, or_false]
      constructor
      · rintro ⟨h3, h4⟩
        exact ⟨by omega, by omega⟩
      · rintro ⟨h3, h4⟩
        constructor
        · by_cases hc : w = v
          · exact .inr ⟨hc, h1 hc⟩
          · exact .inl (by omega)
        · by_cases hc : (s.g.E e).nbr = v
          · exact .inr ⟨hc, h2 hc⟩
          · exact .inl (by omega)
    unfold flagOf
    by_cases hd : Done (v + 1) [] w (s.g.E e).nbr
    · rw [if_pos hd, if_pos (hiff.2 hd)]
    · rw [if_neg hd, if_neg (fun hc => hd (hiff.1 hc))]

end Verif.Text
