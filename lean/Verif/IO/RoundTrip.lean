import Verif.IO.WriteText
import Verif.Graph.Build

/-
Reading back what `_WriteAdjList` wrote.
-/
namespace Verif.Text
open Verif Verif.Graph Verif.SB Verif.Props Function

/-- The edges of `g`, directed or not. -/
structure MixedArcs (g : Graph) : Prop where
  dirs : ∀ w, 1 ≤ w → w ≤ g.N → ∀ e ∈ rotOf g w,
    ((g.E e).flags &&& 96 = 0 ∧ (g.E (twin e)).flags &&& 96 = 0) ∨
    ((g.E e).flags &&& 96 = 32 ∧ (g.E (twin e)).flags &&& 96 = 64) ∨
    ((g.E e).flags &&& 96 = 64 ∧ (g.E (twin e)).flags &&& 96 = 32)

theorem mixedArcs {g : Graph} (hl : Lists g) (hm : Mixed g) : MixedArcs g := by
  constructor
  intro w h1 h2 e he
  have h := hm w h1 h2 _ (hl.fwd w h1 h2) e he
  have hr := hl.range w h1 h2 e he
  have ht := hl.twins w h1 h2 e he
  rw [getDirection_eq (hl.lt w h1 h2 e he), getDirection_eq (hl.lt _ hr.1 hr.2.1 _ ht.1)] at h
  simpa using h

theorem mem_outOf {g : Graph} (hl : Lists g) {w : Nat} (h1 : 1 ≤ w) (h2 : w ≤ g.N) {e : Nat} (he : e ∈ rotOf g w) :
    (g.E e).nbr ∈ outOf g w ↔ (g.E e).flags &&& 96 ≠ 32 := by
  unfold outOf
  rw [List.mem_map]
  constructor
  · rintro ⟨e', he', hn⟩
    simp only [List.mem_filter, List.mem_reverse] at he'
    have := List.inj_on_of_nodup_map (hl.nodup w h1 h2) he'.1 he hn
    subst this
    simpa [written] using he'.2
  · intro h
    exact ⟨e, by simp [he, written, h], rfl⟩

/-- The direction of an arc is the one the text tells. -/
theorem dir_eq {g : Graph} (hl : Lists g) (hm : MixedArcs g) {w : Nat} (h1 : 1 ≤ w) (h2 : w ≤ g.N) {e : Nat} (he : e ∈ rotOf g w) :
    (g.E e).flags &&& 96 = dirFlag (outOf g) w (g.E e).nbr := by
  have hr := hl.range w h1 h2 e he
  have ht := hl.twins w h1 h2 e he
  have m1 := mem_outOf hl h1 h2 he
  have m2 := mem_outOf hl hr.1 hr.2.1 ht.1
  rw [ht.2] at m2
  unfold dirFlag
  rcases hm.dirs w h1 h2 e he with ⟨a, b⟩ | ⟨a, b⟩ | ⟨a, b⟩
  · rw [a] at m1 ⊢; rw [b] at m2
    rw [if_neg (by rw [not_not]; exact m1.2 (by decide)), if_neg (by rw [not_not]; exact m2.2 (by decide))]
  · rw [a] at m1 ⊢
    rw [if_pos (fun hc => m1.1 hc rfl)]
  · rw [a] at m1 ⊢; rw [b] at m2
    rw [if_neg (by rw [not_not]; exact m1.2 (by decide)), if_pos (fun hc => m2.1 hc rfl)]

/-- The neighbours in the graph are those the text joins. -/
theorem nbr_iff {g : Graph} (hl : Lists g) (hm : MixedArcs g) {w : Nat} (h1 : 1 ≤ w) (h2 : w ≤ g.N) (u : Nat) :
    (∃ e ∈ rotOf g w, (g.E e).nbr = u) ↔ Joined (outOf g) (g.N + 1) [] w u := by
  unfold Joined
  simp only [List.not_mem_nil, and_false, or_false]
  constructor
  · rintro ⟨e, he, rfl⟩
    have hr := hl.range w h1 h2 e he
    have ht := hl.twins w h1 h2 e he
    have m1 := mem_outOf hl h1 h2 he
    have m2 := mem_outOf hl hr.1 hr.2.1 ht.1
    rw [ht.2] at m2
    rcases hm.dirs w h1 h2 e he with ⟨a, b⟩ | ⟨a, b⟩ | ⟨a, b⟩
    · rw [a] at m1; exact .inl ⟨h1, by omega, m1.2 (by decide)⟩
    · rw [b] at m2; exact .inr ⟨hr.1, by omega, m2.2 (by decide)⟩
    · rw [a] at m1; exact .inl ⟨h1, by omega, m1.2 (by decide)⟩
  · rintro (⟨-, -, h⟩ | ⟨h3, h4, h⟩)
    · unfold outOf at h
      obtain ⟨e, he, rfl⟩ := List.mem_map.1 h
      simp only [List.mem_filter, List.mem_reverse] at he
      exact ⟨e, he.1, rfl⟩
    · unfold outOf at h
      obtain ⟨e, he, rfl⟩ := List.mem_map.1 h
      simp only [List.mem_filter, List.mem_reverse] at he
      have ht := hl.twins u h3 (by omega) e he.1
      exact ⟨twin e, ht.1, ht.2⟩

/-- What was read has the lists of the text. -/
theorem bet_lists {out : Nat → List Nat} {s : PGraph} {rot : Nat → List Nat} {v : Nat} (h : Bet out s rot v) :
    (∀ w, 1 ≤ w → w ≤ s.g.N → rotOf s.g w = rot w) ∧ Lists s.g := by
  have hS := h.saved
  have hvs : ∀ w, w ≤ s.g.N → w < s.g.vSize := fun w hw => by unfold vSize; omega
  have hrot : ∀ w, w ≤ s.g.N → rotOf s.g w = rot w := by
    intro w hw
    unfold rotOf
    rw [walk_eq hS.links (hvs w hw)]
    rfl
  refine ⟨fun w _ hw => hrot w hw, ?_, ?_, ?_, ?_, ?_, ?_⟩
  · intro w h1 h2; rw [hrot w h2, walk_eq hS.links (hvs w h2)]; rfl
  · intro w h1 h2; rw [hrot w h2, walk_eq hS.links (hvs w h2)]; rfl
  · intro w h1 h2 e he; rw [hrot w h2] at he; exact (hS.links.arc w e he).2
  · intro w h1 h2 e he
    rw [hrot w h2] at he
    have := hS.small _ _ (hS.twins w e (.inl he))
    exact ⟨this.1, this.2, hS.loop w e (.inl he)⟩
  · intro w h1 h2 e he
    rw [hrot w h2] at he
    have hsm := hS.small _ _ (hS.twins w e (.inl he))
    rw [hrot _ hsm.2]
    exact ⟨has_nil.1 (hS.twins w e (.inl he)), hS.owner w e (.inl he)⟩
  · intro w h1 h2; rw [hrot w h2]; exact hS.nbrs_nodup w

theorem Lists.simple {g : Graph} (h : Lists g) : SimpleLists g := by
  intro w h1 h2
  refine ⟨_, h.fwd w h1 h2, h.bwd w h1 h2, ⟨_, h.neighbors h1 h2, h.nodup w h1 h2⟩, ?_⟩
  intro e he
  have hr := h.range w h1 h2 e he
  have ht := h.twins w h1 h2 e he
  exact ⟨_, getNbr_eq (h.lt w h1 h2 e he), hr.1, hr.2.1, hr.2.2,
    by rw [getNbr_eq (h.lt _ hr.1 hr.2.1 _ ht.1), ht.2], _, h.fwd _ hr.1 hr.2.1, ht.1⟩

theorem dirFlag_mask (out : Nat → List Nat) (w u : Nat) : dirFlag out w u &&& 96 = dirFlag out w u := by
  unfold dirFlag
  split
  · rfl
  · split <;> rfl

/-- The lists after reading back. -/
theorem read_back {g : Graph} (hl : Lists g) (hm : MixedArcs g) {s : PGraph} {rot : Nat → List Nat}
    (h : Bet (outOf g) s rot (g.N + 1)) (hN : s.g.N = g.N) {w : Nat} (h1 : 1 ≤ w) (h2 : w ≤ g.N) :
    ∃ l l', Props.entries g w = some l ∧ Props.entries s.g w = some l' ∧ l'.Perm l ∧
      l'.filter (fun x => x.2 ≠ 32) = l.filter (fun x => x.2 ≠ 32) := by
  obtain ⟨hrot, hl'⟩ := bet_lists h
  rw [hN] at hrot
  have hS := h.saved
  refine ⟨_, _, hl.entries h1 h2, hl'.entries h1 (by omega), ?_⟩
  rw [hrot w h1 h2]
  obtain ⟨k, hk⟩ : ∃ k : Nat → Nat × Nat, k = fun u => (u, dirFlag (outOf g) w u) := ⟨_, rfl⟩
  have e1 : (rotOf g w).map (fun e => ((g.E e).nbr, (g.E e).flags &&& 96)) = ((rotOf g w).map fun e => (g.E e).nbr).map k := by
    rw [List.map_map]
    refine List.map_congr_left fun e he => ?_
    rw [hk, dir_eq hl hm h1 h2 he]
    rfl
  have e2 : (rot w).map (fun e => ((s.g.E e).nbr, (s.g.E e).flags &&& 96)) = ((rot w).map fun e => (s.g.E e).nbr).map k := by
    rw [List.map_map]
    refine List.map_congr_left fun e he => ?_
    have hsm := hS.small _ _ (hS.twins w e (.inl he))
    have hf := h.flag w e he
    unfold flagOf at hf
    rw [if_pos (by unfold Done; exact ⟨.inl (by omega), .inl (by omega)⟩)] at hf
    rw [hk, hf, dirFlag_mask]
    rfl
  rw [e1, e2]
  have hnd := hl.nodup w h1 h2
  have hnd' := hS.nbrs_nodup w
  have hmem : ∀ u, u ∈ ((rot w).map fun e => (s.g.E e).nbr) ↔ u ∈ ((rotOf g w).map fun e => (g.E e).nbr) := by
    intro u
    have a := h.adj w u
    have b := nbr_iff hl hm h1 h2 u
    simp only [List.mem_map]
    rw [a, ← b]
  refine ⟨((List.perm_ext_iff_of_nodup hnd' hnd).2 hmem).map k, ?_⟩
  have hfil : ∀ L : List Nat, (∀ u ∈ L, u ∈ outOf g w ∨ w ∈ outOf g u) →
      (L.map k).filter (fun x => x.2 ≠ 32) = (L.filter (· ∈ outOf g w)).map k := by
    intro L _
    rw [List.filter_map]
    congr 1
    refine List.filter_congr fun u _ => ?_
    rw [hk]
    simp only [comp_apply]
    unfold dirFlag
    by_cases hu : u ∈ outOf g w
    · simp only [hu, not_true_eq_false, if_false]
      split <;> simp
    · simp [hu]
  have hall : ∀ L : List Nat, (∀ u ∈ L, u ∈ ((rotOf g w).map fun e => (g.E e).nbr)) → ∀ u ∈ L, u ∈ outOf g w ∨ w ∈ outOf g u := by
    intro L hL u hu
    have := hL u hu
    simp only [List.mem_map] at this
    have := (nbr_iff hl hm h1 h2 u).1 this
    unfold Joined at this
    simp only [List.not_mem_nil, and_false, or_false] at this
    tauto
  rw [hfil _ (hall _ fun u hu => (hmem u).1 hu), hfil _ (hall _ fun u hu => hu), h.old w h1 (by omega)]
  congr 1
  unfold outOf
  rw [← List.map_reverse, ← List.filter_reverse, List.reverse_reverse, List.filter_map]
  congr 1
  refine List.filter_congr fun e he => ?_
  have := mem_outOf hl h1 h2 he
  unfold outOf at this
  have hw : written g e = decide ((g.E e).flags &&& 96 ≠ 32) := by unfold written; simp
  rw [comp_apply, hw]
  exact decide_eq_decide.2 this.symm

theorem zeroBased_of {g : Graph} {z : Bool} (h : (g.flags : Int) = off z * 8) : zeroBased g = z := by
  unfold zeroBased
  cases z
  · have : g.flags = 0 := by simpa [off] using h
    rw [this]; rfl
  · have : g.flags = 8 := by have := h; simp [off] at this; omega
    rw [this]; rfl

/-- The number of edges is a matter of the lists. -/
theorem edges_eq {g g' : Graph} {rot rot' : Nat → List Nat} (hI : Inv g rot) (hI' : Inv g' rot') (hN : g'.N = g.N)
    (h : ∀ w, w < g.vSize → (rot' w).length = (rot w).length) : g'.M = g.M := by
  have h1 := hI.count
  have h2 := hI'.count
  have hvs : g'.vSize = g.vSize := by simp [vSize, hN]
  unfold allArcs at h1 h2
  rw [hvs] at h2
  rw [List.length_flatMap] at h1 h2
  have : (List.range g.vSize).map (fun w => (rot' w).length) = (List.range g.vSize).map (fun w => (rot w).length) :=
    List.map_congr_left fun w hw => h w (by simpa using hw)
  rw [this] at h2
  omega

/-- Every simple graph made with the library has proper lists. -/
theorem simpleLists_of {g : Graph} (hr : Reach g) (hs : IsSimple g) : SimpleLists g := by
  obtain ⟨rot, hI⟩ := hr.inv
  have hvs : ∀ w, w ≤ g.N → w < g.vSize := fun w hw => by unfold vSize; omega
  intro w h1 h2
  obtain ⟨l, hl, hnd, hno, hle, -⟩ := hs w ⟨h1, by omega⟩
  have hl' := neighbors_eq hI (hvs w h2)
  rw [hl] at hl'
  have hl' := Option.some.inj hl'
  refine ⟨_, walk_eq hI.links (hvs w h2) false, walk_eq hI.links (hvs w h2) true, ⟨l, hl, hnd⟩, ?_⟩
  intro e he
  have he : e ∈ rot w := he
  have hlt := (hI.links.arc w e he).2
  have ht := hI.twins w e he
  have hv := hI.links.vert _ _ ht
  have hmem : (g.E e).nbr ∈ l := by rw [hl']; exact List.mem_map.2 ⟨e, he, rfl⟩
  have hle' := hle _ hmem
  refine ⟨_, getNbr_eq hlt, hv.1, hle', fun hc => hno (hc ▸ hmem), ?_, _, walk_eq hI.links (hvs _ hle') false, ht⟩
  rw [getNbr_eq (hI.links.arc _ _ ht).2, hI.owner w e he]

end Verif.Text
