import Verif.Random.Number
import Verif.Graph.Build
import Mathlib.Logic.Relation

/-
Adding an edge to a simple graph, and the loops of `gp_CreateRandomGraph`.
-/
namespace Verif.Random
open Verif Verif.Graph Verif.Props

/-- A simple undirected graph in which the vertices 1..n hang together and the later ones have no edges. -/
structure Grown (N arcCap : Nat) (g : Graph) (n m : Nat) : Prop where
  reach : Reach g
  simple : IsSimple g
  undirected : Undirected g
  order : g.N = N
  cap : g.arcCap = arcCap
  size : g.M = m
  joined : ∀ w, 1 ≤ w → w ≤ n → Relation.ReflTransGen (Adjacent g) 1 w
  rest : ∀ w, n < w → w ≤ N → neighbors g w = some []

theorem neighbors_init (N arcCap : Nat) (hN : 0 < N) (hc : arcCap % 2 = 0) {w : Nat} (hw : IsVertex (Graph.init N arcCap) w) :
    neighbors (Graph.init N arcCap) w = some [] := by
  have h := neighbors_eq (Inv.init N arcCap hc) (w := w) (vSize_iff.1 hw).2
  simpa using h

theorem grown_init (N arcCap : Nat) (hN : 0 < N) (hc : arcCap % 2 = 0) : Grown N arcCap (Graph.init N arcCap) 1 0 := by
  have hn := fun w hw => neighbors_init N arcCap hN hc (w := w) hw
  refine ⟨.init N arcCap hN hc, fun w hw => ⟨[], hn w hw, by simp⟩, ?_, rfl, rfl, rfl, ?_, ?_⟩
  · rintro e ⟨w, he⟩
    have h := Inv.init N arcCap hc
    rw [h.arcAt] at he
    simp at he
  · intro w h1 h2
    obtain rfl : w = 1 := by omega
    exact .refl
  · intro w h1 h2
    exact hn w ⟨by omega, by show w ≤ N + N; omega⟩

theorem mem_addNbr {u v w x : Nat} {l : List Nat} : x ∈ addNbr u 0 v 0 w l ↔ x ∈ l ∨ (w = u ∧ x = v) ∨ (w = v ∧ x = u) := by
  unfold addNbr insAt
  by_cases h1 : w = u <;> by_cases h2 : w = v <;> simp [h1, h2] <;> grind

theorem addEdge_simple {g : Graph} (hr : Reach g) (hs : IsSimple g) (hU : Undirected g) {u v : Nat} (hu : 1 ≤ u ∧ u ≤ g.N)
    (hv : 1 ≤ v ∧ v ≤ g.N) (huv : u ≠ v) (hn : ¬ Adjacent g u v) (hn' : ¬ Adjacent g v u) (hM : g.M < g.arcCap / 2) :
    ∃ g', g.addEdge u 0 v 0 = some (g', .ok) ∧ Reach g' ∧ IsSimple g' ∧ Undirected g' ∧ g'.N = g.N ∧ g'.arcCap = g.arcCap ∧
      g'.M = g.M + 1 ∧ ∀ w, IsVertex g w → ∀ l, neighbors g w = some l → neighbors g' w = some (addNbr u 0 v 0 w l) := by
  have hiu : IsVertex g u := ⟨hu.1, by omega⟩
  have hiv : IsVertex g v := ⟨hv.1, by omega⟩
  obtain ⟨g', x, h1, hp⟩ := C04_addEdge_position hr hiu hiv (ul := 0) (vl := 0) (by omega) (by omega) hM
  have hr' : Reach g' := hr.step (op := .add u 0 v 0) (out := .code .ok) ⟨by omega, by omega⟩ (by simp [Graph.step, h1])
  have hnb : ∀ w, IsVertex g w → ∀ l, neighbors g w = some l → neighbors g' w = some (addNbr u 0 v 0 w l) :=
    fun w hw l hl => edgePlaced_neighbors hr hr' hp hw hl
  refine ⟨g', h1, hr', ?_, edgePlaced_undirected hr hr' hp hU, hp.count.2.1, hp.count.2.2.1, hp.count.1, hnb⟩
  intro w hw
  have hw' : IsVertex g w := by unfold IsVertex at *; rw [hp.count.2.1] at hw; exact hw
  obtain ⟨l, e1, e2, e3, e4, e5⟩ := hs w hw'
  refine ⟨_, hnb w hw' l e1, ?_, ?_, ?_, ?_⟩
  · unfold addNbr insAt
    by_cases c1 : w = u
    · subst c1
      have c2 : w ≠ v := huv
      simp only [c2, if_true, if_false, List.nodup_cons]
      exact ⟨fun hm => hn ⟨l, e1, hm⟩, e2⟩
    · by_cases c2 : w = v
      · subst c2
        simp only [c1, if_true, if_false, List.nodup_cons]
        exact ⟨fun hm => hn' ⟨l, e1, hm⟩, e2⟩
      · simpa [c1, c2] using e2
  · rw [mem_addNbr]
    rintro (h | ⟨h, h'⟩ | ⟨h, h'⟩)
    · exact e3 h
    · omega
    · omega
  · intro y hy
    rw [hp.count.2.1]
    rw [mem_addNbr] at hy
    rcases hy with h | ⟨h, h'⟩ | ⟨h, h'⟩
    · exact e4 y h
    · omega
    · omega
  · intro hlt
    rw [hp.count.2.1] at hlt
    have := e5 hlt
    subst this
    unfold addNbr
    rw [if_neg (by omega), if_neg (by omega)]

/-- `IsSimple` on a reachable graph: neighbours are mutual. -/
theorem adjacent_symm {g : Graph} (hr : Reach g) {u v : Nat} (hu : IsVertex g u) (h : Adjacent g u v) : Adjacent g v u := by
  obtain ⟨rot, hI⟩ := hr.inv
  obtain ⟨l, hl, hv⟩ := h
  rw [neighbors_eq hI (vSize_iff.1 hu).2] at hl
  cases hl
  obtain ⟨e, he, hev⟩ := List.mem_map.1 hv
  have ht := And.intro (hI.twins u e he) (hI.owner u e he)
  rw [hev] at ht
  have hv' := hI.links.vert _ _ ht.1
  refine ⟨_, neighbors_eq hI hv'.2, List.mem_map.2 ⟨twin e, ht.1, ht.2⟩⟩

theorem adjacent_mono {g g' : Graph} {u v : Nat} (hr : Reach g) (hs : IsSimple g)
    (h : ∀ w, IsVertex g w → ∀ l, neighbors g w = some l → neighbors g' w = some (addNbr u 0 v 0 w l)) {a b : Nat}
    (ha : IsVertex g a) (hab : Adjacent g a b) : Adjacent g' a b ∧ IsVertex g b := by
  obtain ⟨l, hl, hb⟩ := hab
  refine ⟨⟨_, h a ha l hl, mem_addNbr.2 (.inl hb)⟩, ?_⟩
  obtain ⟨rot, hI⟩ := hr.inv
  rw [neighbors_eq hI (vSize_iff.1 ha).2] at hl
  cases hl
  obtain ⟨e, he, hev⟩ := List.mem_map.1 hb
  have ht := And.intro (hI.twins a e he) (hI.owner a e he)
  rw [hev] at ht
  exact vSize_iff.2 (hI.links.vert _ _ ht.1)

theorem joined_mono {g g' : Graph} {u v : Nat} (hr : Reach g) (hs : IsSimple g)
    (h : ∀ w, IsVertex g w → ∀ l, neighbors g w = some l → neighbors g' w = some (addNbr u 0 v 0 w l)) {a b : Nat}
    (ha : IsVertex g a) (hab : Relation.ReflTransGen (Adjacent g) a b) :
    Relation.ReflTransGen (Adjacent g') a b ∧ IsVertex g b := by
  induction hab with
  | refl => exact ⟨.refl, ha⟩
  | tail _ h2 ih =>
    have := adjacent_mono hr hs h ih.2 h2
    exact ⟨ih.1.tail this.1, this.2⟩

/-- One more edge between vertices that are not adjacent. -/
theorem Grown.add {N arcCap g n m} (h : Grown N arcCap g n m) {u v : Nat} (hu : 1 ≤ u ∧ u ≤ n) (hn : n ≤ N) (hv : 1 ≤ v ∧ v ≤ N)
    (huv : u ≠ v) (hadj : ¬ Adjacent g u v) (hM : m < arcCap / 2) (hvn : v ≤ n + 1) :
    ∃ g', g.addEdge u 0 v 0 = some (g', .ok) ∧ Grown N arcCap g' (max n v) (m + 1) := by
  have hN : g.N = N := h.order
  have hiv : IsVertex g v := ⟨hv.1, by omega⟩
  obtain ⟨g', h1, hr', hs', hU', e1, e2, e3, hnb⟩ := addEdge_simple h.reach h.simple h.undirected (u := u) (v := v)
    (by omega) (by omega) huv hadj (fun hc => hadj (adjacent_symm h.reach hiv hc)) (by rw [h.size, h.cap]; exact hM)
  have hj : ∀ w, 1 ≤ w → w ≤ n → Relation.ReflTransGen (Adjacent g') 1 w := fun w w1 w2 =>
    (joined_mono h.reach h.simple hnb (by unfold IsVertex; omega) (h.joined w w1 w2)).1
  refine ⟨g', h1, hr', hs', hU', by rw [e1, hN], by rw [e2, h.cap], by rw [e3, h.size], ?_, ?_⟩
  · intro w w1 w2
    by_cases hw : w ≤ n
    · exact hj w w1 hw
    · obtain rfl : w = v := by omega
      refine (hj u hu.1 hu.2).tail ?_
      obtain ⟨l, hl, -⟩ := h.simple u ⟨hu.1, by omega⟩
      exact ⟨_, hnb u ⟨hu.1, by omega⟩ l hl, mem_addNbr.2 (.inr (.inl ⟨rfl, rfl⟩))⟩
  · intro w w1 w2
    have := hnb w ⟨by omega, by omega⟩ [] (h.rest w (by omega) w2)
    rw [this]
    unfold addNbr
    rw [if_neg (by omega), if_neg (by omega)]

theorem addEdge_result {g : Graph} (hr : Reach g) {u v : Nat} (hu : 1 ≤ u ∧ u ≤ g.N) (hv : 1 ≤ v ∧ v ≤ g.N)
    (hM : ¬ g.M < g.arcCap / 2) : g.addEdge u 0 v 0 = some (g, .nonembeddable) := by
  have := (C02_addEdge_codes hr (u : Int) (v : Int) 0 0 (by omega) (by omega)).2.1
  exact this (by omega) (by omega)

/-- The first loop: whatever the stream, if it is defined it makes a tree or fails for lack of room. -/
theorem tree_spec {N arcCap : Nat} (rnd : Nat → Nat) : ∀ (k i v : Nat) (g : Graph), Grown N arcCap g (v - 1) (v - 2) → 2 ≤ v →
    v + k = N + 1 → ∀ g' r, tree rnd k i v g = some (g', r) →
    (r = .ok ∧ Grown N arcCap g' N (N - 1)) ∨ (r = .notok ∧ arcCap / 2 < N - 1)
  | 0, i, v, g, h, h2, hk, g', r, he => by
    simp only [tree, Option.some.injEq, Prod.mk.injEq] at he
    obtain ⟨rfl, rfl⟩ := he
    left
    rw [show v - 1 = N by omega, show v - 2 = N - 1 by omega] at h
    exact ⟨rfl, h⟩
  | k + 1, i, v, g, h, h2, hk, g', r, he => by
    rw [tree] at he
    cases hu : number (rnd i) 1 ((v : Int) - 1) with
    | none => rw [hu] at he; simp at he
    | some u =>
      rw [hu] at he
      have hb := number_bounds (by omega) hu
      obtain ⟨u', rfl⟩ : ∃ u' : Nat, (u' : Int) = u := ⟨u.toNat, by omega⟩
      simp only [Option.bind_eq_bind, Option.bind_some] at he
      have hrest := h.rest v (by omega) (by omega)
      have hadj : ¬ Adjacent g u' v := by
        intro hc
        obtain ⟨l, hl, hm⟩ := adjacent_symm h.reach ⟨by omega, by rw [h.order]; omega⟩ hc
        rw [hrest] at hl
        cases hl
        simp at hm
      by_cases hM : v - 2 < arcCap / 2
      · obtain ⟨g1, e1, hg1⟩ := h.add (u := u') (v := v) (by omega) (by omega) (by omega) (by omega) hadj hM (by omega)
        rw [e1] at he
        simp only [Option.bind_some, ne_eq, not_true, if_false] at he
        rw [show max (v - 1) v = v + 1 - 1 by omega, show v - 2 + 1 = v + 1 - 2 by omega] at hg1
        exact tree_spec rnd k (i + 1) (v + 1) g1 hg1 (by omega) (by omega) g' r he
      · rw [addEdge_result h.reach (by rw [h.order]; omega) (by rw [h.order]; omega) (by rw [h.size, h.cap]; exact hM)] at he
        simp only [Option.bind_some, ne_eq, reduceCtorEq, not_false_eq_true, if_true, Option.some.injEq, Prod.mk.injEq] at he
        exact .inr ⟨he.2.symm, by omega⟩

/-- A stream of rand() values none of which overflows in `_GetRandomNumber`. -/
def Clean (rnd : Nat → Nat) : Prop := ∀ i, rnd i < 2147483648 ∧ (rnd i < 2147450626 ∨ 2147450880 < rnd i)

theorem tree_defined {N arcCap : Nat} {rnd : Nat → Nat} (hc : Clean rnd) (hN : N < 2147483647) : ∀ (k i v : Nat) (g : Graph),
    Grown N arcCap g (v - 1) (v - 2) → 2 ≤ v → v + k = N + 1 → ∃ g' r, tree rnd k i v g = some (g', r)
  | 0, i, v, g, h, h2, hk => ⟨g, .ok, rfl⟩
  | k + 1, i, v, g, h, h2, hk => by
    obtain ⟨u, hu⟩ := number_some (hc i).1 (hc i).2 (lo := 1) (hi := (v : Int) - 1) (by omega)
    have hb := number_bounds (by omega) hu
    obtain ⟨u', rfl⟩ : ∃ u' : Nat, (u' : Int) = u := ⟨u.toNat, by omega⟩
    rw [tree, hu]
    simp only [Option.bind_eq_bind, Option.bind_some]
    have hrest := h.rest v (by omega) (by omega)
    have hadj : ¬ Adjacent g u' v := by
      intro hc
      obtain ⟨l, hl, hm⟩ := adjacent_symm h.reach ⟨by omega, by rw [h.order]; omega⟩ hc
      rw [hrest] at hl
      cases hl
      simp at hm
    by_cases hM : v - 2 < arcCap / 2
    · obtain ⟨g1, e1, hg1⟩ := h.add (u := u') (v := v) (by omega) (by omega) (by omega) (by omega) hadj hM (by omega)
      rw [e1]
      simp only [Option.bind_some, ne_eq, not_true, if_false]
      rw [show max (v - 1) v = v + 1 - 1 by omega, show v - 2 + 1 = v + 1 - 2 by omega] at hg1
      exact tree_defined hc hN k (i + 1) (v + 1) g1 hg1 (by omega) (by omega)
    · rw [addEdge_result h.reach (by rw [h.order]; omega) (by rw [h.order]; omega) (by rw [h.size, h.cap]; exact hM)]
      exact ⟨g, .notok, rfl⟩

/-- `gp_IsNeighbor` in an undirected graph. -/
theorem isNeighbor_adjacent {g : Graph} (hr : Reach g) (hU : Undirected g) {u : Nat} (hu : IsVertex g u) (v : Nat) :
    ∃ b, g.isNeighbor u v = some b ∧ (b = true ↔ Adjacent g u v) := by
  obtain ⟨b, h1, h2⟩ := C12_isNeighbor hr hu v
  refine ⟨b, h1, h2.trans ?_⟩
  obtain ⟨rot, hI⟩ := hr.inv
  constructor
  · rintro ⟨e, d, a1, a2, -, -⟩
    rw [hI.arcAt] at a1
    rw [getNbr_eq (hI.links.arc _ _ a1).2] at a2
    exact ⟨_, neighbors_eq hI (vSize_iff.1 hu).2, List.mem_map.2 ⟨e, a1, by simpa using a2⟩⟩
  · rintro ⟨l, hl, hm⟩
    rw [neighbors_eq hI (vSize_iff.1 hu).2] at hl
    cases hl
    obtain ⟨e, he, hev⟩ := List.mem_map.1 hm
    refine ⟨e, 0, hI.arcAt.2 he, by rw [getNbr_eq (hI.links.arc _ _ he).2, hev], hU e ⟨u, hI.arcAt.2 he⟩, by omega⟩

/-- One attempt at another edge. -/
theorem attempt_spec {N arcCap g m} (h : Grown N arcCap g N m) {u v : Nat} (hu : 1 ≤ u) (huv : u < v) (hv : v ≤ N) :
    (Adjacent g u v ∧ attempt g u v = some (g, false, none)) ∨
    (¬ Adjacent g u v ∧ m < arcCap / 2 ∧ ∃ g', attempt g u v = some (g', true, none) ∧ Grown N arcCap g' N (m + 1)) ∨
    (¬ Adjacent g u v ∧ ¬ m < arcCap / 2 ∧ attempt g u v = some (g, true, some .notok)) := by
  obtain ⟨b, h1, h2⟩ := isNeighbor_adjacent h.reach h.undirected (u := u) ⟨hu, by rw [h.order]; omega⟩ v
  unfold attempt
  rw [Int.toNat_natCast, Int.toNat_natCast, h1]
  simp only [Option.bind_eq_bind, Option.bind_some]
  by_cases hb : b = true
  · exact .inl ⟨h2.1 hb, by rw [if_pos hb]; rfl⟩
  · have hadj := fun hc => hb (h2.2 hc)
    right
    rw [if_neg hb]
    by_cases hM : m < arcCap / 2
    · left
      obtain ⟨g1, e1, hg1⟩ := h.add (u := u) (v := v) (by omega) (by omega) (by omega) (by omega) hadj hM (by omega)
      rw [max_eq_left hv] at hg1
      exact ⟨hadj, hM, g1, by rw [e1]; rfl, hg1⟩
    · right
      rw [addEdge_result h.reach (by rw [h.order]; omega) (by rw [h.order]; omega) (by rw [h.size, h.cap]; exact hM)]
      exact ⟨hadj, hM, rfl⟩

/-- The second loop. -/
theorem extra_spec {N arcCap : Nat} (rnd : Nat → Nat) (M : Int) (hN : 1 ≤ N) (hM : M ≤ (N : Int) * ((N : Int) - 1) / 2) :
    ∀ (fuel i m : Nat) (g : Graph), Grown N arcCap g N m → ∀ g' r, extra rnd M fuel i m g = some (g', r) →
    ∃ m', m ≤ m' ∧ ((m' : Int) ≤ M ∨ m' = m) ∧ Grown N arcCap g' N m' ∧ (r = some .ok → M ≤ m') ∧
      (r = some .notok → arcCap / 2 ≤ m' ∧ (m' : Int) < M) ∧ r ≠ some .nonembeddable
  | 0, i, m, g, h, g', r, he => by
    rw [extra] at he
    split at he <;> cases he
    · exact ⟨m, le_rfl, .inr rfl, h, by simp⟩
    · exact ⟨m, le_rfl, .inr rfl, h, by simp; omega⟩
  | fuel + 1, i, m, g, h, g', r, he => by
    rw [extra] at he
    split at he
    · rename_i hm
      have hN2 : 2 ≤ N := by
        rcases Nat.lt_or_ge N 2 with hlt | hge
        · obtain rfl : N = 1 := by omega
          simp at hM
          omega
        · exact hge
      rw [h.order] at he
      cases hu : number (rnd i) 1 ((N : Int) - 1) with
      | none => rw [hu] at he; simp at he
      | some u =>
        rw [hu] at he
        have hb := number_bounds (by omega) hu
        obtain ⟨u', rfl⟩ : ∃ u' : Nat, (u' : Int) = u := ⟨u.toNat, by omega⟩
        simp only [Option.bind_eq_bind, Option.bind_some] at he
        cases hv : number (rnd (i + 1)) ((u' : Int) + 1) (N : Int) with
        | none => rw [hv] at he; simp at he
        | some v =>
          rw [hv] at he
          have hb' := number_bounds (by omega) hv
          obtain ⟨v', rfl⟩ : ∃ v' : Nat, (v' : Int) = v := ⟨v.toNat, by omega⟩
          simp only [Option.bind_some] at he
          rcases attempt_spec h (u := u') (v := v') (by omega) (by omega) (by omega) with ⟨-, ea⟩ | ⟨-, hlt, g1, ea, hg1⟩ | ⟨-, hlt, ea⟩
          · rw [ea] at he
            exact extra_spec rnd M hN hM fuel (i + 2) m g h g' r he
          · rw [ea] at he
            obtain ⟨m', a1, a2, a3⟩ := extra_spec rnd M hN hM fuel (i + 2) (m + 1) g1 hg1 g' r he
            exact ⟨m', by omega, by omega, a3⟩
          · rw [ea] at he
            cases he
            exact ⟨m, le_rfl, .inr rfl, h, by simp; omega⟩
    · cases he
      exact ⟨m, le_rfl, .inr rfl, h, by simp; omega⟩

theorem extra_defined {N arcCap : Nat} {rnd : Nat → Nat} (hc : Clean rnd) (M : Int) (hN : 1 ≤ N) (hN2 : N < 2147483647)
    (hM : M ≤ (N : Int) * ((N : Int) - 1) / 2) : ∀ (fuel i m : Nat) (g : Graph), Grown N arcCap g N m →
    ∃ g' r, extra rnd M fuel i m g = some (g', r)
  | 0, i, m, g, h => by
    rw [extra]
    split <;> exact ⟨_, _, rfl⟩
  | fuel + 1, i, m, g, h => by
    rw [extra]
    split
    · rename_i hm
      have hN2 : 2 ≤ N := by
        rcases Nat.lt_or_ge N 2 with hlt | hge
        · obtain rfl : N = 1 := by omega
          simp at hM
          omega
        · exact hge
      rw [h.order]
      obtain ⟨u, hu⟩ := number_some (hc i).1 (hc i).2 (lo := 1) (hi := (N : Int) - 1) (by omega)
      have hb := number_bounds (by omega) hu
      obtain ⟨u', rfl⟩ : ∃ u' : Nat, (u' : Int) = u := ⟨u.toNat, by omega⟩
      obtain ⟨v, hv⟩ := number_some (hc (i + 1)).1 (hc (i + 1)).2 (lo := (u' : Int) + 1) (hi := N) (by omega)
      have hb' := number_bounds (by omega) hv
      obtain ⟨v', rfl⟩ : ∃ v' : Nat, (v' : Int) = v := ⟨v.toNat, by omega⟩
      rw [hu]
      simp only [Option.bind_eq_bind, Option.bind_some]
      rw [hv]
      simp only [Option.bind_some]
      rcases attempt_spec h (u := u') (v := v') (by omega) (by omega) (by omega) with ⟨-, ea⟩ | ⟨-, hlt, g1, ea, hg1⟩ | ⟨-, hlt, ea⟩
      · rw [ea]
        exact extra_defined hc M hN (by omega) hM fuel (i + 2) m g h
      · rw [ea]
        exact extra_defined hc M hN (by omega) hM fuel (i + 2) (m + 1) g1 hg1
      · rw [ea]
        exact ⟨_, _, rfl⟩
    · exact ⟨_, _, rfl⟩

end Verif.Random
