import Verif.Embed.IsoKeep
import Verif.Graph.Build

/-
A graph made of paths between branch vertices is a subdivision.
-/
namespace Verif.Isolate
open Verif Verif.Embed Verif.Graph Verif.EGraph Verif.Random Verif.Test Verif.DFS Verif.Props Function

variable {B : Base} {M : Nat → Prop} {g : Graph} {L : Nat → List Nat}

/-- The arcs `ms` lead along the vertices of a list. -/
inductive Way (B : Base) : List Nat → List Nat → Prop
  | nil (a : Nat) : Way B [] [a]
  | cons {e a b : Nat} {ms p : List Nat} (h1 : B.own e = a) (h2 : B.own (twin e) = b) (h : Way B ms (b :: p)) : Way B (e :: ms) (a :: b :: p)

theorem Way.one {e a b : Nat} (h1 : B.own e = a) (h2 : B.own (twin e) = b) : Way B [e] [a, b] := .cons h1 h2 (.nil b)

theorem Way.links {ms p : List Nat} (h : Way B ms p) : links p = ms.map fun e => (B.own e, B.own (twin e)) := by
  induction h with
  | nil a => rfl
  | cons h1 h2 _ ih =>
    rw [List.map_cons, ← ih, h1, h2]; rfl

theorem Way.snoc {ms p : List Nat} {a e b : Nat} (h : Way B ms (p ++ [a])) (h1 : B.own e = a) (h2 : B.own (twin e) = b) : Way B (ms ++ [e]) (p ++ [a, b]) := by
  generalize hq : p ++ [a] = q at h
  induction h generalizing p with
  | nil c =>
    cases p with
    | nil =>
      have : a = c := by simpa using hq
      exact .one h1 h2
    | cons z l => simp at hq
  | @cons f c d ms r k1 k2 k ih =>
    cases p with
    | nil => simp at hq
    | cons z l =>
      cases l with
      | nil =>
        have hq' : z = c ∧ a = d ∧ [] = r := by simpa using hq
        obtain ⟨rfl, rfl, rfl⟩ := hq'
        exact .cons k1 k2 (ih (p := []) rfl)
      | cons y l =>
        have hq' : z = c ∧ y = d ∧ l ++ [a] = r := by simpa using hq
        obtain ⟨rfl, rfl, rfl⟩ := hq'
        exact .cons k1 k2 (ih (p := y :: l) rfl)

theorem Way.rev {ms p : List Nat} (h : Way B ms p) : Way B (ms.reverse.map twin) p.reverse := by
  induction h with
  | nil a => exact .nil a
  | @cons e a b ms p h1 h2 h ih =>
    rw [List.reverse_cons, List.map_append, List.reverse_cons]
    rw [List.reverse_cons] at ih ⊢
    have := ih.snoc (e := twin e) (b := a) h2 (by rw [twin_twin]; exact h1)
    simpa using this

theorem mem_links {l : List Nat} {p : Nat × Nat} (h : p ∈ links l) : p.1 ∈ l ∧ p.2 ∈ l := by
  obtain ⟨a, b⟩ := p
  have := List.of_mem_zip h
  exact ⟨this.1, List.mem_of_mem_tail this.2⟩

theorem links_cons (a b : Nat) (l : List Nat) : links (a :: b :: l) = (a, b) :: links (b :: l) := rfl

theorem links_nodup : ∀ {l : List Nat}, l.Nodup → (links l ++ (links l).map Prod.swap).Nodup ∧ ∀ p ∈ links l, p.1 ≠ p.2
  | [], _ => by simp [links]
  | [a], _ => by simp [links]
  | a :: b :: l, h => by
    rw [List.nodup_cons] at h
    obtain ⟨ih, ihn⟩ := links_nodup h.2
    rw [links_cons]
    have h0 : ∀ p ∈ links (b :: l), p.1 ≠ a ∧ p.2 ≠ a := fun p hp => ⟨fun hh => h.1 (hh ▸ (mem_links hp).1), fun hh => h.1 (hh ▸ (mem_links hp).2)⟩
    have hab : a ≠ b := fun hh => h.1 (by rw [hh]; simp)
    constructor
    · rw [List.map_cons, List.cons_append, List.nodup_cons, List.nodup_middle, List.nodup_cons]
      refine ⟨?_, ?_, ih⟩
      · rw [List.mem_append, List.mem_cons]
        rintro (hh | hh | hh)
        · exact (h0 _ hh).1 rfl
        · exact hab (congrArg Prod.fst hh)
        · obtain ⟨p, hp, hpe⟩ := List.mem_map.1 hh
          have := congrArg Prod.fst hpe
          exact (h0 p hp).2 this
      · rw [List.mem_append]
        rintro (hh | hh)
        · exact (h0 _ hh).2 rfl
        · obtain ⟨p, hp, hpe⟩ := List.mem_map.1 hh
          have := congrArg Prod.snd hpe
          exact (h0 p hp).1 this
    · intro p hp
      rcases List.mem_cons.1 hp with rfl | hp
      · exact hab
      · exact ihn p hp

/-- No two edges join the same vertices. -/
def Thin (n : Nat) (E : List (Nat × Nat)) : Prop :=
  (∀ p ∈ E, p.1 < n ∧ p.2 < n ∧ p.1 ≠ p.2) ∧ E.Pairwise fun p q => p ≠ q ∧ ∀ i j, (i = p.1 ∨ i = p.2) → (i = q.1 ∨ i = q.2) → (j = p.1 ∨ j = p.2) → (j = q.1 ∨ j = q.2) → i = j

theorem steps_nodup {n : Nat} {E : List (Nat × Nat)} (hE : Thin n E) {branch : Nat → Nat} {path : Nat × Nat → List Nat}
    (hn : ((List.range n).map branch ++ E.flatMap path).Nodup) : (steps branch path E ++ (steps branch path E).map Prod.swap).Nodup := by
  obtain ⟨h1, h2, h3⟩ := List.nodup_append.1 hn
  have hinj : ∀ i j, i < n → j < n → branch i = branch j → i = j := fun i j hi hj h =>
    List.inj_on_of_nodup_map h1 (List.mem_range.2 hi) (List.mem_range.2 hj) h
  have hbp : ∀ i, i < n → ∀ p ∈ E, branch i ∉ path p := fun i hi p hp hh =>
    h3 _ (List.mem_map.2 ⟨i, List.mem_range.2 hi, rfl⟩) _ (List.mem_flatMap.2 ⟨p, hp, hh⟩) rfl
  rw [List.nodup_flatMap] at h2
  have hv : ∀ p ∈ E, (branch p.1 :: path p ++ [branch p.2]).Nodup := by
    intro p hp
    obtain ⟨a, b, c⟩ := hE.1 p hp
    have := h2.1 p hp
    have i1 := hbp _ a p hp
    have i2 := hbp _ b p hp
    have i3 : branch p.1 ≠ branch p.2 := fun hh => c (hinj _ _ a b hh)
    rw [List.cons_append, List.nodup_cons, List.mem_append, List.mem_singleton, List.nodup_append]
    refine ⟨fun h => h.elim i1 i3, this, by simp, ?_⟩
    intro z hz y hy
    rw [List.mem_singleton] at hy
    rintro rfl
    exact i2 (hy ▸ hz)
  have hp : (steps branch path E ++ (steps branch path E).map Prod.swap).Perm
      (E.flatMap fun p => links (branch p.1 :: path p ++ [branch p.2]) ++ (links (branch p.1 :: path p ++ [branch p.2])).map Prod.swap) := by
    unfold steps
    rw [List.map_flatMap]
    exact List.flatMap_append_perm _ _ _
  rw [hp.nodup_iff, List.nodup_flatMap]
  refine ⟨fun p hp => (links_nodup (hv p hp)).1, ?_⟩
  have hboth : E.Pairwise fun p q => (p ∈ E ∧ q ∈ E) ∧ (List.Disjoint on path) p q ∧ p ≠ q ∧
      ∀ i j, (i = p.1 ∨ i = p.2) → (i = q.1 ∨ i = q.2) → (j = p.1 ∨ j = p.2) → (j = q.1 ∨ j = q.2) → i = j := by
    have := h2.2.and hE.2
    exact List.Pairwise.imp_of_mem (fun ha hb h => ⟨⟨ha, hb⟩, h⟩) this
  refine hboth.imp ?_
  rintro p q ⟨⟨hp, hq⟩, hd, hne, hs⟩
  obtain ⟨a1, a2, a3⟩ := hE.1 p hp
  obtain ⟨b1, b2, b3⟩ := hE.1 q hq
  have hcom : ∀ z, z ∈ branch p.1 :: path p ++ [branch p.2] → z ∈ branch q.1 :: path q ++ [branch q.2] →
      ∃ i, (i = p.1 ∨ i = p.2) ∧ (i = q.1 ∨ i = q.2) ∧ z = branch i := by
    intro z h1 h2
    have hb : ∀ i j, i < n → j < n → z = branch i → z = branch j → i = j := fun i j hi hj h h' => hinj i j hi hj (h.symm.trans h')
    have h1 : z ∈ path p ∨ z = branch p.1 ∨ z = branch p.2 := by simp at h1; tauto
    have h2 : z ∈ path q ∨ z = branch q.1 ∨ z = branch q.2 := by simp at h2; tauto
    rcases h1 with h1 | h1 | h1 <;> rcases h2 with h2 | h2 | h2
    · exact absurd h2 (fun h => hd h1 h)
    · exact absurd (h2 ▸ h1) (hbp _ b1 p hp)
    · exact absurd (h2 ▸ h1) (hbp _ b2 p hp)
    · exact absurd (h1 ▸ h2) (hbp _ a1 q hq)
    · exact ⟨_, .inl rfl, .inl (hb _ _ a1 b1 h1 h2), h1⟩
    · exact ⟨_, .inl rfl, .inr (hb _ _ a1 b2 h1 h2), h1⟩
    · exact absurd (h1 ▸ h2) (hbp _ a2 q hq)
    · exact ⟨_, .inr rfl, .inl (hb _ _ a2 b1 h1 h2), h1⟩
    · exact ⟨_, .inr rfl, .inr (hb _ _ a2 b2 h1 h2), h1⟩
  have hin : ∀ r ∈ E, ∀ z ∈ links (branch r.1 :: path r ++ [branch r.2]) ++ (links (branch r.1 :: path r ++ [branch r.2])).map Prod.swap,
      z.1 ≠ z.2 ∧ z.1 ∈ branch r.1 :: path r ++ [branch r.2] ∧ z.2 ∈ branch r.1 :: path r ++ [branch r.2] := by
    intro r hr z hz
    rcases List.mem_append.1 hz with hz | hz
    · exact ⟨(links_nodup (hv r hr)).2 z hz, mem_links hz⟩
    · obtain ⟨y, hy, rfl⟩ := List.mem_map.1 hz
      exact ⟨((links_nodup (hv r hr)).2 y hy).symm, (mem_links hy).2, (mem_links hy).1⟩
  intro z hz1 hz2
  obtain ⟨n1, m1, m2⟩ := hin p hp z hz1
  obtain ⟨-, m3, m4⟩ := hin q hq z hz2
  obtain ⟨i, i1, i2, i3⟩ := hcom _ m1 m3
  obtain ⟨j, j1, j2, j3⟩ := hcom _ m2 m4
  exact n1 (by rw [i3, j3, hs i j i1 i2 j1 j2])

/-- The marked edges make up paths between branch vertices. -/
theorem Remains.subdivision (h : Remains B M g L) {n : Nat} {E : List (Nat × Nat)} (hE : Thin n E) {branch : Nat → Nat} {path ms : Nat × Nat → List Nat}
    (hn : ((List.range n).map branch ++ E.flatMap path).Nodup) (hr : ∀ w ∈ (List.range n).map branch ++ E.flatMap path, 1 ≤ w ∧ w ≤ B.N)
    (hw : ∀ p ∈ E, Way B (ms p) (branch p.1 :: path p ++ [branch p.2])) (hm : ∀ e, (B.A e ∧ M e) ↔ ∃ p ∈ E, e ∈ ms p ∨ twin e ∈ ms p) : IsSubdivision g n E := by
  refine ⟨branch, path, hn, by rw [h.N]; exact hr, fun w hv => ⟨_, neighbors_eq h.inv (vSize_iff.1 hv).2, ?_⟩⟩
  have hst : steps branch path E = (E.flatMap ms).map fun e => (B.own e, B.own (twin e)) := by
    unfold steps
    rw [List.map_flatMap]
    exact List.flatMap_congr fun p hp => (hw p hp).links
  have hnd := steps_nodup hE hn
  rw [hst] at hnd ⊢
  have hm : ∀ e, (B.A e ∧ M e) ↔ e ∈ E.flatMap ms ∨ twin e ∈ E.flatMap ms := by
    intro e
    rw [hm]
    simp only [List.mem_flatMap]
    constructor
    · rintro ⟨p, hp, h | h⟩
      · exact .inl ⟨p, hp, h⟩
      · exact .inr ⟨p, hp, h⟩
    · rintro (⟨p, hp, h⟩ | ⟨p, hp, h⟩)
      · exact ⟨p, hp, .inl h⟩
      · exact ⟨p, hp, .inr h⟩
  generalize E.flatMap ms = D at hnd hm
  have hnd : (D ++ D.map twin).Nodup := by
    refine List.Nodup.of_map (fun e => (B.own e, B.own (twin e))) ?_
    rw [List.map_append, List.map_map]
    rw [List.map_map] at hnd
    have : (fun e => (B.own e, B.own (twin e))) ∘ twin = Prod.swap ∘ fun e => (B.own e, B.own (twin e)) := by
      funext e
      show (B.own (twin e), B.own (twin (twin e))) = _
      rw [twin_twin]; rfl
    rw [this]; exact hnd
  have h1 : (L w).Perm ((D ++ D.map twin).filter fun e => B.own e = w) := by
    rw [List.perm_ext_iff_of_nodup (h.inv.links.nodup w) (hnd.filter _)]
    intro e
    rw [h.mem, List.mem_filter, List.mem_append]
    have : e ∈ D.map twin ↔ twin e ∈ D := by
      rw [List.mem_map]
      exact ⟨fun ⟨d, hd, he⟩ => by rw [← he, twin_twin]; exact hd, fun hd => ⟨twin e, hd, twin_twin e⟩⟩
    rw [this, ← hm, decide_eq_true_eq]
    tauto
  have h2 : (L w).map (fun e => (g.E e).nbr) = (L w).map fun e => B.own (twin e) := List.map_congr_left fun e he => h.nbr w e he
  rw [h2]
  refine (h1.map _).trans ?_
  rw [List.filter_append, List.map_append, List.filter_map, List.map_map]
  unfold around
  rw [List.filter_map, List.filter_map, List.map_map, List.map_map]
  have : (fun e => B.own (twin e)) ∘ twin = B.own := by funext e; exact congrArg B.own (twin_twin e)
  rw [this]
  exact .refl _

end Verif.Isolate
