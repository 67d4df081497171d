import Verif.Test.Follow

/-
The tests for subdivisions of K4, K5 and K3,3 are exact.
-/
namespace Verif
namespace Test
open Graph Map Equiv Equiv.Perm Props DFS

/-- `E` lists the edges of the complete graph. -/
structure Complete (n : Nat) (E : List (Nat × Nat)) : Prop where
  range : ∀ p ∈ E, p.1 < n ∧ p.2 < n ∧ p.1 ≠ p.2
  nodup : E.Nodup
  asymm : ∀ p ∈ E, (p.2, p.1) ∉ E
  deg : ∀ i, i < n → (E.filter fun p => decide (p.1 = i)).length + (E.filter fun p => decide (p.2 = i)).length = n - 1
  all : ∀ i, i < n → ∀ j, j < n → i ≠ j → (i, j) ∈ E ∨ (j, i) ∈ E

theorem complete4 : Complete 4 edgesK4 := ⟨by decide, by decide, by decide, by decide, by
  have : ∀ i, i < 4 → ∀ j, j < 4 → i = j ∨ (i, j) ∈ edgesK4 ∨ (j, i) ∈ edgesK4 := by decide
  exact fun i hi j hj hij => (this i hi j hj).resolve_left hij⟩
theorem complete5 : Complete 5 edgesK5 := ⟨by decide, by decide, by decide, by decide, by
  have : ∀ i, i < 5 → ∀ j, j < 5 → i = j ∨ (i, j) ∈ edgesK5 ∨ (j, i) ∈ edgesK5 := by decide
  exact fun i hi j hj hij => (this i hi j hj).resolve_left hij⟩

theorem mem_completePairs {n i j : Nat} : (i, j) ∈ completePairs n ↔ i < n ∧ j < n ∧ i ≠ j := by
  unfold completePairs
  rw [List.mem_flatMap]
  constructor
  · rintro ⟨v, hv, hp⟩
    obtain ⟨w, hw, he⟩ := List.mem_map.1 hp
    cases he
    have h2 := List.of_mem_filter hw
    exact ⟨List.mem_range.1 hv, List.mem_range.1 (List.mem_of_mem_filter hw), of_decide_eq_true h2⟩
  · rintro ⟨h1, h2, h3⟩
    exact ⟨i, List.mem_range.2 h1, List.mem_map.2 ⟨j, List.mem_filter.2 ⟨List.mem_range.2 h2, decide_eq_true h3⟩, rfl⟩⟩

section
variable {g : Graph} {rot : Nat → List Nat} (h : Inv g rot)
include h

/-- The two directions of a path. -/
theorem Realised.unique {n : Nat} {E : List (Nat × Nat)} {B : Nat → Nat} {c : Nat × Nat → Dart rot}
    (hR : Realised h n E B c) {i j : Nat} (hi : i < n) (hj : j < n) {d d' : Dart rot} (h1 : own g d = B i)
    (h2 : fin h.weak d = B j) (h3 : own g d' = B i) (h4 : fin h.weak d' = B j) : d = d' := by
  rcases hR.conn h hi hj h1 h2 with ⟨k1, k2⟩ | ⟨k1, k2⟩ <;> rcases hR.conn h hi hj h3 h4 with ⟨k3, k4⟩ | ⟨k3, k4⟩
  · rw [k2, k4]
  · exact absurd k3 (hR.asymm _ k1)
  · exact absurd k1 (hR.asymm _ k3)
  · rw [k2, k4]

theorem Realised.conn_iff {n : Nat} {E : List (Nat × Nat)} {B : Nat → Nat} {c : Nat × Nat → Dart rot}
    (hR : Realised h n E B c) {i j : Nat} (hi : i < n) (hj : j < n) :
    Conn h.weak (B i) (B j) ↔ (i, j) ∈ E ∨ (j, i) ∈ E := by
  constructor
  · rintro ⟨d, h1, h2⟩
    rcases hR.conn h hi hj h1 h2 with ⟨k, -⟩ | ⟨k, -⟩
    · exact .inl k
    · exact .inr k
  · rintro (k | k)
    · exact ⟨c (i, j), hR.start _ k, hR.stop _ k⟩
    · exact ⟨back h.weak (c (j, i)), by rw [fin_back]; exact hR.stop _ k,
        by rw [back_fin h.weak (hR.not2 h _ k)]; exact hR.start _ k⟩

omit h in
theorem bigVerts_nodup : (bigVerts rot (List.range' 1 g.N)).Nodup := by
  unfold bigVerts
  exact List.Nodup.filter _ List.nodup_range'

omit h in
theorem mem_big {v : Nat} : v ∈ bigVerts rot (List.range' 1 g.N) ↔ 1 ≤ v ∧ v ≤ g.N ∧ 2 < (rot v).length := by
  rw [mem_bigVerts, List.mem_range'_1]
  constructor <;> intro hh
  · exact ⟨hh.1.1, by omega, hh.2⟩
  · exact ⟨⟨hh.1, by omega⟩, hh.2.2⟩

/-- The image vertices are the branch vertices. -/
theorem Realised.perm {n k : Nat} (hk : 2 < k) {E : List (Nat × Nat)} {B : Nat → Nat} {c : Nat × Nat → Dart rot}
    (hR : Realised h n E B c) (hp : ∀ i, i < n → 1 ≤ B i ∧ B i ≤ g.N)
    (hd : ∀ v, 1 ≤ v → v ≤ g.N → (rot v).length = 0 ∨ (rot v).length = 2 ∨ ∃ i, i < n ∧ v = B i)
    (hdg : ∀ i, i < n → (E.filter fun p => decide (p.1 = i)).length + (E.filter fun p => decide (p.2 = i)).length = k) :
    (bigVerts rot (List.range' 1 g.N)).Perm ((List.range n).map B) ∧
      ∀ v, 1 ≤ v → v ≤ g.N → (rot v).length = 0 ∨ (rot v).length = 2 ∨ (rot v).length = k := by
  constructor
  · rw [List.perm_ext_iff_of_nodup bigVerts_nodup]
    · intro v
      rw [mem_big, List.mem_map]
      constructor
      · rintro ⟨h1, h2, h3⟩
        rcases hd v h1 h2 with h4 | h4 | ⟨i, hi, rfl⟩
        · omega
        · omega
        · exact ⟨i, List.mem_range.2 hi, rfl⟩
      · rintro ⟨i, hi, rfl⟩
        have hi := List.mem_range.1 hi
        refine ⟨(hp i hi).1, (hp i hi).2, ?_⟩
        have := (hR.deg i hi).2
        rw [this]
        have := hdg i hi
        omega
    · refine (List.nodup_map_iff_inj_on List.nodup_range).2 ?_
      intro i hi j hj he
      exact hR.inj i j (List.mem_range.1 hi) (List.mem_range.1 hj) he
  · intro v h1 h2
    rcases hd v h1 h2 with h4 | h4 | ⟨i, hi, rfl⟩
    · exact .inl h4
    · exact .inr (.inl h4)
    · right; right
      rw [(hR.deg i hi).2]
      exact hdg i hi

omit h in
theorem get_inj {l : List Nat} (hl : l.Nodup) {i j : Nat} (hi : i < l.length) (hj : j < l.length) (he : l[i]! = l[j]!) :
    i = j := by
  rw [getElem!_pos l i hi, getElem!_pos l j hj] at he
  exact hl.getElem_inj_iff.1 he

omit h in
theorem exists_get {l : List Nat} {x : Nat} (hx : x ∈ l) : ∃ i, i < l.length ∧ l[i]! = x := by
  obtain ⟨i, hi, rfl⟩ := List.mem_iff_getElem.1 hx
  exact ⟨i, hi, getElem!_pos l i hi⟩

/-- A subdivision of a complete graph has possible degrees. -/
theorem degOk_complete {n : Nat} (hn : 4 ≤ n) {E : List (Nat × Nat)} (hE : Complete n E) {D M : Nat} (hD : n ≤ D + 1)
    (hM : n ≤ M) (hs : IsSubdivision g n E) : DegOk rot D M (List.range' 1 g.N) := by
  have hne : E ≠ [] := by
    intro hc
    have := hE.deg 0 (by omega)
    rw [hc] at this
    simp at this
    omega
  obtain ⟨B, c, hR, h1, h2, -⟩ := realised_of h hs hE.range hE.nodup hE.asymm hne
    (fun i hi => by rw [hE.deg i hi]; omega)
  obtain ⟨h3, h4⟩ := hR.perm h (k := n - 1) (by omega) h1 h2 hE.deg
  refine ⟨?_, ?_⟩
  · intro v hv
    rw [List.mem_range'_1] at hv
    rcases h4 v hv.1 (by omega) with h5 | h5 | h5 <;> omega
  · rw [h3.length_eq]; simpa using hM

/-- The test for a complete graph is exact. -/
theorem complete_exact {n M D : Nat} (hn : 4 ≤ n) (hM : n ≤ M) (hD : n ≤ D + 1) {E : List (Nat × Nat)}
    (hE : Complete n E) (hprim : ∀ u e, e ∈ rot u → 1 ≤ u ∧ u ≤ g.N) (hok : DegOk rot D M (List.range' 1 g.N))
    {F : Nat → Nat → Nat} (hF : ∀ w f, F w f / 2 = f / 2) :
    ∃ F' ok, testComplete (g.relabel F) n (degCounts rot D (List.range' 1 g.N)) (imageOf rot M (List.range' 1 g.N)) =
        some (g.relabel F', ok) ∧ (∀ w f, F' w f / 2 = f / 2) ∧ (ok = true ↔ IsSubdivision g n E) := by
  obtain ⟨F', ok, e, f1, f2, f3⟩ := testComplete_spec h.weak hn hM hD hok hF
  refine ⟨F', ok, e, f1, ?_, ?_⟩
  · intro hk
    obtain ⟨q1, q2, q3, q4⟩ := f2 hk
    have hbm : ∀ i, i < n → 1 ≤ (bigVerts rot (List.range' 1 g.N))[i]! ∧ (bigVerts rot (List.range' 1 g.N))[i]! ≤ g.N ∧
        (rot (bigVerts rot (List.range' 1 g.N))[i]!).length = n - 1 := by
      intro i hi
      obtain ⟨a, b, c⟩ := mem_big.1 (get_mem (l := bigVerts rot (List.range' 1 g.N)) (i := i) (by omega))
      rcases q1 _ a b with k | k | k
      · omega
      · omega
      · exact ⟨a, b, k⟩
    have hne : Nonempty (Dart rot) := by
      obtain ⟨d, -⟩ := q3 (0, 1) (mem_completePairs.2 ⟨by omega, by omega, by omega⟩)
      exact ⟨d⟩
    refine subdivision_of h (B := fun i => (bigVerts rot (List.range' 1 g.N))[i]!) hE.range hE.nodup hE.asymm ?_ ?_ hprim
      ?_ ?_ ?_ ?_
    · intro i j hi hj he
      exact get_inj bigVerts_nodup (by omega) (by omega) he
    · intro i hi
      exact ⟨(hbm i hi).1, (hbm i hi).2.1⟩
    · intro u hu
      obtain ⟨e', he⟩ := List.exists_mem_of_ne_nil _ hu
      obtain ⟨a, b⟩ := hprim u e' he
      rcases q1 u a b with k | k | k
      · exact absurd (List.eq_nil_of_length_eq_zero k) hu
      · exact .inl k
      · right
        obtain ⟨i, hi, he⟩ := exists_get (mem_big.2 ⟨a, b, by omega⟩ : u ∈ bigVerts rot (List.range' 1 g.N))
        exact ⟨i, by omega, he.symm⟩
    · intro i hi
      have := hE.deg i hi
      rw [(hbm i hi).2.2]
      exact ⟨by omega, this.symm⟩
    · intro p hp
      obtain ⟨a, b, c⟩ := hE.range p hp
      exact q3 p (mem_completePairs.2 ⟨a, b, c⟩)
    · intro u hu
      obtain ⟨e', he⟩ := List.exists_mem_of_ne_nil (rot u) (fun hc => by rw [hc] at hu; cases hu)
      obtain ⟨a, b⟩ := hprim u e' he
      obtain ⟨p, hp, d, m1, m2, m3⟩ := q4 u a b hu
      obtain ⟨c1, c2, c3⟩ := mem_completePairs.1 hp
      exact ⟨p.1, p.2, hE.all p.1 c1 p.2 c2 c3, d, m1, m2, m3⟩
  · intro hs
    have hne : E ≠ [] := by
      intro hc
      have := hE.deg 0 (by omega)
      rw [hc] at this
      simp at this
      omega
    obtain ⟨B, c, hR, h1, h2, h5⟩ := realised_of h hs hE.range hE.nodup hE.asymm hne
      (fun i hi => by rw [hE.deg i hi]; omega)
    obtain ⟨h3, h4⟩ := hR.perm h (k := n - 1) (by omega) h1 h2 hE.deg
    have hl : (bigVerts rot (List.range' 1 g.N)).length = n := by rw [h3.length_eq]; simp
    have hget : ∀ i, i < n → ∃ i', i' < n ∧ (bigVerts rot (List.range' 1 g.N))[i]! = B i' := by
      intro i hi
      obtain ⟨i', a, b⟩ := List.mem_map.1 (h3.subset (get_mem (i := i) (by omega)))
      exact ⟨i', List.mem_range.1 a, b.symm⟩
    have hput : ∀ i', i' < n → ∃ i, i < n ∧ (bigVerts rot (List.range' 1 g.N))[i]! = B i' := by
      intro i' hi
      obtain ⟨i, a, b⟩ := exists_get (h3.symm.subset (List.mem_map.2 ⟨i', List.mem_range.2 hi, rfl⟩))
      exact ⟨i, by omega, b⟩
    refine f3 h4 hl ?_ ?_ ?_
    · intro p hp
      obtain ⟨a, b, ne⟩ := mem_completePairs.1 hp
      obtain ⟨i, hi, e1⟩ := hget p.1 a
      obtain ⟨j, hj, e2⟩ := hget p.2 b
      rw [e1, e2, hR.conn_iff h hi hj]
      refine hE.all i hi j hj ?_
      rintro rfl
      exact ne (get_inj bigVerts_nodup (by omega) (by omega) (e1.trans e2.symm))
    · intro w w1 w2 w3
      obtain ⟨p, hp, hw⟩ := h5 w w1 w2 w3
      obtain ⟨a, b, ne⟩ := hE.range p hp
      obtain ⟨i, hi, e1⟩ := hput p.1 a
      obtain ⟨j, hj, e2⟩ := hput p.2 b
      refine ⟨(i, j), mem_completePairs.2 ⟨hi, hj, ?_⟩, c p, ?_, ?_, hw⟩
      · rintro rfl
        exact ne (hR.inj _ _ a b (e1.symm.trans e2))
      · rw [hR.start p hp, e1]
      · rw [hR.stop p hp, e2]
    · intro p hp d d' m1 m2 m3 m4
      obtain ⟨a, b, ne⟩ := mem_completePairs.1 hp
      obtain ⟨i, hi, e1⟩ := hget p.1 a
      obtain ⟨j, hj, e2⟩ := hget p.2 b
      rw [e1] at m1 m3
      rw [e2] at m2 m4
      exact hR.unique h hi hj m1 m2 m3 m4

/-! ### K3,3 -/

omit h in
theorem k33_range : ∀ p ∈ edgesK33, p.1 < 6 ∧ p.2 < 6 ∧ p.1 ≠ p.2 := by decide
omit h in
theorem k33_deg : ∀ i, i < 6 →
    (edgesK33.filter fun p => decide (p.1 = i)).length + (edgesK33.filter fun p => decide (p.2 = i)).length = 3 := by
  decide
omit h in
theorem k33_mem : ∀ i, i < 6 → ∀ j, j < 6 → ((i, j) ∈ edgesK33 ↔ i < 3 ∧ 3 ≤ j) := by decide

/-- A subdivision of K3,3 has possible degrees. -/
theorem degOk_k33 (hs : IsSubdivision g 6 edgesK33) : DegOk rot 4 6 (List.range' 1 g.N) := by
  obtain ⟨B, c, hR, h1, h2, -⟩ := realised_of h hs k33_range (by decide) (by decide) (by decide)
    (fun i hi => by rw [k33_deg i hi]; omega)
  obtain ⟨h3, h4⟩ := hR.perm h (k := 3) (by omega) h1 h2 k33_deg
  refine ⟨?_, ?_⟩
  · intro v hv
    rw [List.mem_range'_1] at hv
    rcases h4 v hv.1 (by omega) with h5 | h5 | h5 <;> omega
  · rw [h3.length_eq]; simp

/-- Paths between the vertices of the two sides make a subdivision. -/
theorem k33_sound (hprim : ∀ u e, e ∈ rot u → 1 ≤ u ∧ u ≤ g.N)
    (q1 : ∀ v ∈ List.range' 1 g.N, (rot v).length = 0 ∨ (rot v).length = 2 ∨ (rot v).length = 3)
    (q2 : (bigVerts rot (List.range' 1 g.N)).length = 6) {vs : List Nat}
    (m2 : vs.Perm (bigVerts rot (List.range' 1 g.N))) (p1 : PairsOk h.weak vs edgesK33)
    (p2 : UsedOk h.weak vs edgesK33) : IsSubdivision g 6 edgesK33 := by
  have hvl : vs.length = 6 := by rw [m2.length_eq, q2]
  have hvn : vs.Nodup := m2.nodup_iff.2 bigVerts_nodup
  have hvb : ∀ i, i < 6 → 1 ≤ vs[i]! ∧ vs[i]! ≤ g.N ∧ (rot vs[i]!).length = 3 := by
    intro i hi
    obtain ⟨a, b, c⟩ := mem_big.1 (m2.subset (get_mem (i := i) (by omega)))
    rcases q1 vs[i]! (List.mem_range'_1.2 ⟨a, by omega⟩) with k | k | k
    · omega
    · omega
    · exact ⟨a, b, k⟩
  have hne : Nonempty (Dart rot) := by
    obtain ⟨d, -⟩ := p1 (0, 3) (by decide)
    exact ⟨d⟩
  refine subdivision_of h (B := fun i => vs[i]!) k33_range (by decide) (by decide) ?_ ?_ hprim ?_ ?_ ?_ ?_
  · intro i j hi hj he
    exact get_inj hvn (by omega) (by omega) he
  · intro i hi
    exact ⟨(hvb i hi).1, (hvb i hi).2.1⟩
  · intro u hu
    obtain ⟨e', he⟩ := List.exists_mem_of_ne_nil _ hu
    obtain ⟨a, b⟩ := hprim u e' he
    rcases q1 u (List.mem_range'_1.2 ⟨a, by omega⟩) with k | k | k
    · exact absurd (List.eq_nil_of_length_eq_zero k) hu
    · exact .inl k
    · right
      obtain ⟨i, hi, he⟩ := exists_get (m2.symm.subset (mem_big.2 ⟨a, b, by omega⟩))
      exact ⟨i, by omega, he.symm⟩
  · intro i hi
    have := k33_deg i hi
    rw [(hvb i hi).2.2]
    exact ⟨by omega, this.symm⟩
  · exact p1
  · intro u hu
    obtain ⟨e', he⟩ := List.exists_mem_of_ne_nil (rot u) (fun hc => by rw [hc] at hu; cases hu)
    obtain ⟨a, b⟩ := hprim u e' he
    obtain ⟨p, hp, d, n1, n2, n3⟩ := p2 u a b hu
    exact ⟨p.1, p.2, .inl hp, d, n1, n2, n3⟩

omit h in
/-- The sides of the partition. -/
theorem sides {A : Nat → Prop} {big vs : List Nat} (hn : big.Nodup) (m2 : vs.Perm big) (hvl : vs.length = 6)
    (hfour : ∀ u1 u2 u3 u4, [u1, u2, u3, u4].Subperm big → ¬ ((A u1 ↔ A u2) ∧ (A u1 ↔ A u3) ∧ (A u1 ↔ A u4)))
    (m5 : ∀ j ∈ [3, 4, 5], ¬ (A vs[j]! ↔ A vs[0]!)) : ∀ i, i < 6 → ((A vs[i]! ↔ A vs[0]!) ↔ i < 3) := by
  have hvn : vs.Nodup := m2.nodup_iff.2 hn
  have opp : ∀ j, 3 ≤ j → j < 6 → ¬ (A vs[j]! ↔ A vs[0]!) := by
    intro j j1 j2
    refine m5 j ?_
    simp only [List.mem_cons, List.not_mem_nil, or_false]
    omega
  intro i hi
  constructor
  · intro hh
    by_contra hc
    exact opp i (by omega) hi hh
  · intro hi3
    by_cases hi0 : i = 0
    · rw [hi0]
    · by_contra hc
      refine hfour vs[i]! vs[3]! vs[4]! vs[5]! ?_ ?_
      · refine List.Subperm.trans ?_ m2.subperm
        refine List.subperm_of_subset ?_ ?_
        · have hne : ∀ a b, a < 6 → b < 6 → a ≠ b → vs[a]! ≠ vs[b]! := fun a b ha hb hab he =>
            hab (get_inj hvn (by omega) (by omega) he)
          simp only [List.nodup_cons, List.mem_cons, List.not_mem_nil, or_false, not_or, List.nodup_nil, and_true,
            not_false_eq_true]
          exact ⟨⟨hne i 3 (by omega) (by omega) (by omega), hne i 4 (by omega) (by omega) (by omega),
            hne i 5 (by omega) (by omega) (by omega)⟩, ⟨hne 3 4 (by omega) (by omega) (by omega),
            hne 3 5 (by omega) (by omega) (by omega)⟩, hne 4 5 (by omega) (by omega) (by omega)⟩
        · intro u hu
          simp only [List.mem_cons, List.not_mem_nil, or_false] at hu
          rcases hu with rfl | rfl | rfl | rfl <;> exact get_mem (by omega)
      · have o3 := opp 3 (by omega) (by omega)
        have o4 := opp 4 (by omega) (by omega)
        have o5 := opp 5 (by omega) (by omega)
        tauto

/-- The paths of a subdivision pass the test. -/
theorem k33_accept {B : Nat → Nat} {c : Nat × Nat → Dart rot} (hR : Realised h 6 edgesK33 B c) {A : Nat → Prop}
    (h3 : (bigVerts rot (List.range' 1 g.N)).Perm ((List.range 6).map B))
    (h5 : ∀ v, 1 ≤ v → v ≤ g.N → (rot v).length = 2 → ∃ p ∈ edgesK33, v ∈ ins h.weak (c p))
    (hA : ∀ i, i < 6 → (A (B i) ↔ i < 3))
    (hC : ∀ u ∈ bigVerts rot (List.range' 1 g.N), ∀ v ∈ bigVerts rot (List.range' 1 g.N),
      (Conn h.weak u v ↔ ¬ (A u ↔ A v)))
    (hfour : ∀ u1 u2 u3 u4, [u1, u2, u3, u4].Subperm (bigVerts rot (List.range' 1 g.N)) →
      ¬ ((A u1 ↔ A u2) ∧ (A u1 ↔ A u3) ∧ (A u1 ↔ A u4)))
    {vs : List Nat} (m2 : vs.Perm (bigVerts rot (List.range' 1 g.N)))
    (m5 : ∀ j ∈ [3, 4, 5], ¬ (A vs[j]! ↔ A vs[0]!)) :
    PairsOk h.weak vs edgesK33 ∧ UsedOk h.weak vs edgesK33 ∧ UniqueOk h.weak vs edgesK33 := by
  have q2 : (bigVerts rot (List.range' 1 g.N)).length = 6 := by rw [h3.length_eq]; simp
  have hb : ∀ u ∈ bigVerts rot (List.range' 1 g.N), ∃ i, i < 6 ∧ u = B i := by
    intro u hu
    obtain ⟨i, a, b⟩ := List.mem_map.1 (h3.subset hu)
    exact ⟨i, List.mem_range.1 a, b.symm⟩
  have hvl : vs.length = 6 := by rw [m2.length_eq, q2]
  have hvn : vs.Nodup := m2.nodup_iff.2 bigVerts_nodup
  have hvb : ∀ i, i < 6 → ∃ j, j < 6 ∧ vs[i]! = B j := fun i hi => hb _ (m2.subset (get_mem (by omega)))
  have hput : ∀ i', i' < 6 → ∃ i, i < 6 ∧ vs[i]! = B i' := by
    intro i' hi
    obtain ⟨i, a, b⟩ := exists_get ((m2.trans h3).symm.subset (List.mem_map.2 ⟨i', List.mem_range.2 hi, rfl⟩))
    exact ⟨i, by omega, b⟩
  have hside := sides bigVerts_nodup m2 hvl hfour m5
  refine ⟨?_, ?_, ?_⟩
  · intro p hp
    obtain ⟨a, b, -⟩ := k33_range p hp
    obtain ⟨p1, p2⟩ := (k33_mem p.1 a p.2 b).1 hp
    rw [hC _ (m2.subset (get_mem (by omega))) _ (m2.subset (get_mem (by omega)))]
    have s1 := (hside p.1 a).2 p1
    have s2 := mt (hside p.2 b).1 (by omega)
    tauto
  · intro w w1 w2 w3
    obtain ⟨p, hp, hw⟩ := h5 w w1 w2 w3
    obtain ⟨a, b, -⟩ := k33_range p hp
    obtain ⟨p1, p2⟩ := (k33_mem p.1 a p.2 b).1 hp
    obtain ⟨i, hi, e3⟩ := hput p.1 a
    obtain ⟨j, hj, e4⟩ := hput p.2 b
    have s1 := hside i hi
    have s2 := hside j hj
    rw [e3, hA p.1 a] at s1
    rw [e4, hA p.2 b] at s2
    by_cases hi3 : i < 3
    · have hj3 : ¬ j < 3 := by
        intro hc
        have s1 := s1.2 hi3
        have s2 := s2.2 hc
        have := (s2.trans s1.symm).2 p1
        omega
      exact ⟨(i, j), (k33_mem i hi j hj).2 ⟨hi3, by omega⟩, c p, by rw [hR.start p hp, e3], by rw [hR.stop p hp, e4], hw⟩
    · have hj3 : j < 3 := by
        by_contra hc
        have s1 := mt s1.1 hi3
        have s2 := mt s2.1 hc
        have : ¬ p.2 < 3 := by omega
        tauto
      exact ⟨(j, i), (k33_mem j hj i hi).2 ⟨hj3, by omega⟩, back h.weak (c p), by rw [fin_back, hR.stop p hp, e4],
        by rw [back_fin h.weak (hR.not2 h p hp), hR.start p hp, e3], (ins_back h.weak (hR.not2 h p hp) w).2 hw⟩
  · intro p hp d d' n1 n2 n3 n4
    obtain ⟨a, b, -⟩ := k33_range p hp
    obtain ⟨i, hi, e3⟩ := hvb p.1 a
    obtain ⟨j, hj, e4⟩ := hvb p.2 b
    rw [e3] at n1 n3
    rw [e4] at n2 n4
    exact hR.unique h hi hj n1 n2 n3 n4

/-- The test for K3,3 is exact. -/
theorem k33_exact (hprim : ∀ u e, e ∈ rot u → 1 ≤ u ∧ u ≤ g.N) (hok : DegOk rot 4 6 (List.range' 1 g.N))
    {F : Nat → Nat → Nat} (hF : ∀ w f, F w f / 2 = f / 2) :
    ∃ F' ok, testK33 (g.relabel F) (degCounts rot 4 (List.range' 1 g.N)) (imageOf rot 6 (List.range' 1 g.N)) =
        some (g.relabel F', ok) ∧ (∀ w f, F' w f / 2 = f / 2) ∧ (ok = true ↔ IsSubdivision g 6 edgesK33) := by
  -- a subdivision has six vertices of degree three
  have hdeg : IsSubdivision g 6 edgesK33 → (bigVerts rot (List.range' 1 g.N)).length = 6 ∧
      ∀ v ∈ List.range' 1 g.N, (rot v).length = 0 ∨ (rot v).length = 2 ∨ (rot v).length = 3 := by
    intro hs
    obtain ⟨B, c, hR, h1, h2, -⟩ := realised_of h hs k33_range (by decide) (by decide) (by decide)
      (fun i hi => by rw [k33_deg i hi]; omega)
    obtain ⟨h3, h4⟩ := hR.perm h (k := 3) (by omega) h1 h2 k33_deg
    refine ⟨by rw [h3.length_eq]; simp, fun v hv => ?_⟩
    rw [List.mem_range'_1] at hv
    exact h4 v hv.1 (by omega)
  unfold testK33
  rw [degCounts_get (by omega), degCounts_get (by omega)]
  simp only [Option.bind_eq_bind, Option.bind_some]
  by_cases k1 : (List.range' 1 g.N).countP (fun u => decide ((rot u).length = 4)) ≠ 0
  · rw [if_pos k1]
    refine ⟨F, false, rfl, hF, fun hc => (by cases hc), fun hs => ?_⟩
    exfalso
    apply k1
    rw [List.countP_eq_zero]
    intro v hv hc
    have hc := of_decide_eq_true hc
    rcases (hdeg hs).2 v hv with k | k | k <;> omega
  rw [if_neg k1]
  by_cases k2 : (List.range' 1 g.N).countP (fun u => decide ((rot u).length = 3)) ≠ 6
  · rw [if_pos k2]
    refine ⟨F, false, rfl, hF, fun hc => (by cases hc), fun hs => ?_⟩
    exfalso
    apply k2
    obtain ⟨k3, k4⟩ := hdeg hs
    rw [bigVerts_of (by omega) k4, ← List.countP_eq_length_filter] at k3
    exact k3
  rw [if_neg k2]
  have k1 := not_not.1 k1
  have k2 := not_not.1 k2
  have q1 : ∀ v ∈ List.range' 1 g.N, (rot v).length = 0 ∨ (rot v).length = 2 ∨ (rot v).length = 3 := by
    intro v hv
    obtain ⟨a, b⟩ := hok.1 v hv
    have c : (rot v).length ≠ 4 := fun hc => List.countP_eq_zero.1 k1 v hv (decide_eq_true hc)
    omega
  have q2 : (bigVerts rot (List.range' 1 g.N)).length = 6 := by
    rw [bigVerts_of (by omega) q1, ← List.countP_eq_length_filter]; exact k2
  have him : imageOf rot 6 (List.range' 1 g.N) = bigVerts rot (List.range' 1 g.N) := by
    unfold imageOf
    rw [q2]; simp
  rw [him]
  have hgood : Good (g := g) (rot := rot) (bigVerts rot (List.range' 1 g.N)) := by
    intro v hv
    obtain ⟨a, b, c⟩ := mem_big.1 hv
    exact ⟨by unfold vSize; omega, by omega⟩
  -- the end of the test
  have hfin : ∀ (F1 : Nat → Nat → Nat) (vs : List Nat), (∀ w f, F1 w f / 2 = f / 2) →
      vs.Perm (bigVerts rot (List.range' 1 g.N)) → _ := fun F1 vs hF1 hp =>
    finish_spec h.weak (verts := vs) (ps := edgesK33) (D := 4) (by omega)
      (ds := degCounts rot 4 (List.range' 1 g.N)) rfl
      (fun p hp' => by
        have := k33_range p hp'
        rw [hp.length_eq, q2]
        exact ⟨this.1, this.2.1⟩)
      (fun p hp' => by
        have := k33_range p hp'
        exact hgood _ (hp.subset (get_mem (by rw [hp.length_eq, q2]; exact this.1))))
      hF1
  by_cases hs : IsSubdivision g 6 edgesK33
  · -- a subdivision is accepted
    obtain ⟨B, c, hR, h1, h2, h5⟩ := realised_of h hs k33_range (by decide) (by decide) (by decide)
      (fun i hi => by rw [k33_deg i hi]; omega)
    obtain ⟨h3, h4⟩ := hR.perm h (k := 3) (by omega) h1 h2 k33_deg
    have hb : ∀ u ∈ bigVerts rot (List.range' 1 g.N), ∃ i, i < 6 ∧ u = B i := by
      intro u hu
      obtain ⟨i, a, b⟩ := List.mem_map.1 (h3.subset hu)
      exact ⟨i, List.mem_range.1 a, b.symm⟩
    let A : Nat → Prop := fun u => ∃ i, i < 3 ∧ u = B i
    have hA : ∀ i, i < 6 → (A (B i) ↔ i < 3) := by
      intro i hi
      constructor
      · rintro ⟨j, hj, he⟩
        rw [hR.inj i j hi (by omega) he]; exact hj
      · intro hi'; exact ⟨i, hi', rfl⟩
    have hC : ∀ u ∈ bigVerts rot (List.range' 1 g.N), ∀ v ∈ bigVerts rot (List.range' 1 g.N),
        (Conn h.weak u v ↔ ¬ (A u ↔ A v)) := by
      intro u hu v hv
      obtain ⟨i, hi, rfl⟩ := hb u hu
      obtain ⟨j, hj, rfl⟩ := hb v hv
      rw [hR.conn_iff h hi hj, hA i hi, hA j hj, k33_mem i hi j hj, k33_mem j hj i hi]
      omega
    have hfour : ∀ u1 u2 u3 u4, [u1, u2, u3, u4].Subperm (bigVerts rot (List.range' 1 g.N)) →
        ¬ ((A u1 ↔ A u2) ∧ (A u1 ↔ A u3) ∧ (A u1 ↔ A u4)) := by
      intro u1 u2 u3 u4 hsp
      have hn : [u1, u2, u3, u4].Nodup := by
        obtain ⟨l, l1, l2⟩ := hsp
        exact l1.nodup_iff.1 (bigVerts_nodup.sublist l2)
      obtain ⟨i1, a1, rfl⟩ := hb u1 (hsp.subset (by simp))
      obtain ⟨i2, a2, rfl⟩ := hb u2 (hsp.subset (by simp))
      obtain ⟨i3, a3, rfl⟩ := hb u3 (hsp.subset (by simp))
      obtain ⟨i4, a4, rfl⟩ := hb u4 (hsp.subset (by simp))
      rw [hA i1 a1, hA i2 a2, hA i3 a3, hA i4 a4]
      have hn' : i1 ≠ i2 ∧ i1 ≠ i3 ∧ i1 ≠ i4 ∧ i2 ≠ i3 ∧ i2 ≠ i4 ∧ i3 ≠ i4 := by
        simp only [List.nodup_cons, List.mem_cons, List.not_mem_nil, or_false, not_or, not_false_eq_true, List.nodup_nil,
          and_true] at hn
        obtain ⟨⟨n1, n2, n3⟩, ⟨n4, n5⟩, n6⟩ := hn
        exact ⟨fun hc => n1 (by rw [hc]), fun hc => n2 (by rw [hc]), fun hc => n3 (by rw [hc]), fun hc => n4 (by rw [hc]),
          fun hc => n5 (by rw [hc]), fun hc => n6 (by rw [hc])⟩
      omega
    obtain ⟨F1, vs, e1, m1, m2, m3, -, m5⟩ := partition_ok h.weak (A := A) [3, 4, 5] F
      (bigVerts rot (List.range' 1 g.N)) (by decide)
      (fun pos hp => by
        rw [q2]
        simp only [List.mem_cons, List.not_mem_nil, or_false] at hp
        omega)
      hgood hF hC hfour bigVerts_nodup
    rw [e1]
    simp only [Option.bind_some, Bool.not_true, Bool.false_eq_true, if_false]
    obtain ⟨F', ok, e2, f1, -, f3⟩ := hfin F1 vs m1 m2
    obtain ⟨a1, a2, a3⟩ := k33_accept h hR h3 h5 hA hC hfour m2 m5
    have hok' : ok = true := f3 a1 a2 a3
    exact ⟨F', ok, e2, f1, fun _ => hs, fun _ => hok'⟩
  · obtain ⟨F1, vs, ok, e1, m1, m2⟩ := partition_perm h.weak [3, 4, 5] F (bigVerts rot (List.range' 1 g.N))
      (fun pos hp => by
        rw [q2]
        simp only [List.mem_cons, List.not_mem_nil, or_false] at hp
        omega)
      hgood hF
    rw [e1]
    simp only [Option.bind_some]
    cases ok with
    | false => exact ⟨F1, false, rfl, m1, fun hc => (by cases hc), fun hc => absurd hc hs⟩
    | true =>
      simp only [Bool.not_true, Bool.false_eq_true, if_false]
      obtain ⟨F', ok, e2, f1, f2, -⟩ := hfin F1 vs m1 m2
      refine ⟨F', ok, e2, f1, fun hk => ?_, fun hc => absurd hc hs⟩
      exact k33_sound h hprim q1 q2 m2 (f2 hk).1 (f2 hk).2

end
end Test
end Verif
