import Verif.Test.Image

/-
The tests for subdivisions of complete graphs and of K3,3 are exact.
-/
namespace Verif
namespace Test
open Graph Map Equiv Equiv.Perm Props DFS

/-- Clearing the marks of the vertices 1 to N. -/
theorem clearAll_relabel (g : Graph) {F : Nat → Nat → Nat} (hF : ∀ w f, F w f / 2 = f / 2) :
    ∃ F0, (g.relabel F).clearVisitedAll = some (g.relabel F0) ∧ (∀ w f, F0 w f / 2 = f / 2) ∧
      ∀ w f, 1 ≤ w → w ≤ g.N → F0 w f % 2 = 0 := by
  refine ⟨fun w f => if 1 ≤ w ∧ w ≤ g.N then F w f / 2 * 2 else F w f, ?_, ?_, ?_⟩
  · rw [clearVisitedAll_eq]; rfl
  · intro w f
    have := hF w f
    dsimp only
    split <;> omega
  · intro w f h1 h2
    dsimp only
    rw [if_pos ⟨h1, h2⟩]
    omega

/-- Three degrees use up the vertices. -/
theorem degrees_of_counts {rot : Nat → List Nat} {k : Nat} (hk : 2 < k) : ∀ P : List Nat,
    P.countP (fun v => decide ((rot v).length = 0)) + P.countP (fun v => decide ((rot v).length = 2)) +
      P.countP (fun v => decide ((rot v).length = k)) ≤ P.length ∧
    (P.countP (fun v => decide ((rot v).length = 0)) + P.countP (fun v => decide ((rot v).length = 2)) +
      P.countP (fun v => decide ((rot v).length = k)) = P.length ↔
      ∀ v ∈ P, (rot v).length = 0 ∨ (rot v).length = 2 ∨ (rot v).length = k) := by
  intro P
  induction P with
  | nil => simp
  | cons a P ih =>
    obtain ⟨i1, i2⟩ := ih
    simp only [List.countP_cons, List.length_cons, List.forall_mem_cons, ← i2, decide_eq_true_eq]
    by_cases h0 : (rot a).length = 0
    · simp only [h0, if_true]
      rw [if_neg (by omega), if_neg (by omega)]
      constructor
      · omega
      · constructor
        · intro hh; exact ⟨.inl trivial, by omega⟩
        · intro hh; omega
    · by_cases h2 : (rot a).length = 2
      · simp only [h2, if_true]
        rw [if_neg (by omega), if_neg (by omega)]
        constructor
        · omega
        · constructor
          · intro hh; exact ⟨.inr (.inl trivial), by omega⟩
          · intro hh; omega
      · by_cases h3 : (rot a).length = k
        · rw [if_neg h0, if_neg h2, if_pos h3]
          constructor
          · omega
          · constructor
            · intro hh; exact ⟨.inr (.inr h3), by omega⟩
            · intro hh; omega
        · rw [if_neg h0, if_neg h2, if_neg h3]
          constructor
          · omega
          · constructor
            · intro hh; omega
            · intro hh; omega

theorem mem_bigVerts {rot : Nat → List Nat} {P : List Nat} {v : Nat} :
    v ∈ bigVerts rot P ↔ v ∈ P ∧ 2 < (rot v).length := by
  unfold bigVerts
  rw [List.mem_filter, decide_eq_true_eq]

/-- Vertices of the degrees 0, 2 and `k` only: the large ones have the degree `k`. -/
theorem bigVerts_of {rot : Nat → List Nat} {k : Nat} (hk : 2 < k) {P : List Nat}
    (h : ∀ v ∈ P, (rot v).length = 0 ∨ (rot v).length = 2 ∨ (rot v).length = k) :
    bigVerts rot P = P.filter fun v => decide ((rot v).length = k) := by
  unfold bigVerts
  apply List.filter_congr
  intro v hv
  rcases h v hv with h1 | h1 | h1
  · simp [h1]; omega
  · simp [h1]; omega
  · simp [h1, hk]

section
variable {g : Graph} {rot : Nat → List Nat} (h : WInv g rot)
include h

/-- There is a path from `u` to `v` through vertices of degree two. -/
def Conn (u v : Nat) : Prop := ∃ d : Dart rot, own g d = u ∧ fin h d = v

/-- The pairs are joined by paths. -/
def PairsOk (verts : List Nat) (ps : List (Nat × Nat)) : Prop := ∀ p ∈ ps, Conn h verts[p.1]! verts[p.2]!

/-- Each vertex of degree two is on a path. -/
def UsedOk (verts : List Nat) (ps : List (Nat × Nat)) : Prop :=
  ∀ w, 1 ≤ w → w ≤ g.N → (rot w).length = 2 →
    ∃ p ∈ ps, ∃ d : Dart rot, own g d = verts[p.1]! ∧ fin h d = verts[p.2]! ∧ w ∈ ins h d

/-- The paths are unique. -/
def UniqueOk (verts : List Nat) (ps : List (Nat × Nat)) : Prop :=
  ∀ p ∈ ps, ∀ d d' : Dart rot, own g d = verts[p.1]! → fin h d = verts[p.2]! → own g d' = verts[p.1]! →
    fin h d' = verts[p.2]! → d = d'

theorem ins_deg2 {d : Dart rot} {w : Nat} (hw : w ∈ ins h d) : (rot w).length = 2 := by
  obtain ⟨t, ht, rfl⟩ := (mem_ins h).1 hw
  exact plen_min h ht

/-- All vertices of degree two are marked. -/
theorem allUsed_spec {F0 F : Nat → Nat → Nat} {S : Nat → Prop} {D : Nat} (hD : 2 ≤ D)
    (h0 : ∀ w f, 1 ≤ w → w ≤ g.N → F0 w f % 2 = 0) (hA : Adds F0 F S)
    (hS : ∀ w, 1 ≤ w → w ≤ g.N → S w → (rot w).length = 2) :
    ∃ b, allUsed (g.relabel F) (degCounts rot D (List.range' 1 g.N)) = some b ∧
      (b = true ↔ ∀ w, 1 ≤ w → w ≤ g.N → (rot w).length = 2 → S w) := by
  classical
  unfold allUsed
  rw [countVisited_eq, degCounts_get hD]
  refine ⟨_, rfl, ?_⟩
  have hN : (g.relabel F).N = g.N := rfl
  rw [hN, beq_iff_eq]
  have hm : ∀ w ∈ List.range' 1 g.N, (decide (((g.relabel F).V w).flags % 2 = 1) = true ↔ S w) := by
    intro w hw
    rw [List.mem_range'_1] at hw
    rw [decide_eq_true_eq]
    show F w (g.V w).flags % 2 = 1 ↔ _
    rw [hA.low, h0 w _ hw.1 (by omega)]
    simp
  rw [countP_eq_iff]
  · constructor
    · intro hh w h1 h2 h3
      have hw : w ∈ List.range' 1 g.N := List.mem_range'_1.2 ⟨h1, by omega⟩
      exact (hm w hw).1 (hh w hw (decide_eq_true h3))
    · intro hh w hw h3
      have hw' := List.mem_range'_1.1 hw
      exact (hm w hw).2 (hh w hw'.1 (by omega) (of_decide_eq_true h3))
  · intro w hw h3
    have hw' := List.mem_range'_1.1 hw
    exact decide_eq_true (hS w hw'.1 (by omega) ((hm w hw).1 h3))

/-- The common end of two of the tests. -/
theorem finish_spec {verts : List Nat} {ps : List (Nat × Nat)} {D : Nat} (hD : 2 ≤ D) {ds : List Nat}
    (hds : ds = degCounts rot D (List.range' 1 g.N))
    (hv : ∀ p ∈ ps, p.1 < verts.length ∧ p.2 < verts.length)
    (hU : ∀ p ∈ ps, verts[p.1]! < g.vSize ∧ (rot verts[p.1]!).length ≠ 2)
    {F : Nat → Nat → Nat} (hF : ∀ w f, F w f / 2 = f / 2) :
    ∃ F' ok, (do
      let g ← (g.relabel F).clearVisitedAll
      let (g, ok) ← testPairs verts ps g
      if !ok then return (g, false)
      else do return (g, ← allUsed g ds)) = some (g.relabel F', ok) ∧
      (∀ w f, F' w f / 2 = f / 2) ∧ (ok = true → PairsOk h verts ps ∧ UsedOk h verts ps) ∧
      (PairsOk h verts ps → UsedOk h verts ps → UniqueOk h verts ps → ok = true) := by
  obtain ⟨F0, e0, hF0, h0⟩ := clearAll_relabel g hF
  rw [e0]
  simp only [Option.bind_eq_bind, Option.bind_some]
  obtain ⟨F1, ok, S, e1, k1, k2, k3, k4⟩ := testPairs_spec h ps hF0 hv hU
  rw [e1]
  simp only [Option.bind_some]
  cases ok with
  | false =>
    refine ⟨F1, false, rfl, k2.high, fun hc => (by cases hc), fun hp _ _ => ?_⟩
    exact k1.2 hp
  | true =>
    simp only [Bool.not_true, Bool.false_eq_true, if_false]
    obtain ⟨b, e2, k5⟩ := allUsed_spec h hD h0 k2 (fun w _ _ hw => by
      obtain ⟨p, hp, d, _, _, hd⟩ := k3 w hw
      exact ins_deg2 h hd)
    rw [hds, e2]
    refine ⟨F1, b, rfl, k2.high, fun hb => ⟨k1.1 rfl, ?_⟩, ?_⟩
    · intro w h1 h2 h3
      exact k3 w (k5.1 hb w h1 h2 h3)
    · intro _ hu hq
      refine k5.2 fun w h1 h2 h3 => ?_
      obtain ⟨p, hp, d, m1, m2, m3⟩ := hu w h1 h2 h3
      obtain ⟨d', n1, n2, n3⟩ := k4 rfl p hp
      have := hq p hp d d' m1 m2 n1 n2
      subst this
      exact n3 w m3

/-- `_TestForCompleteGraphObstruction`. -/
theorem testComplete_spec {n M : Nat} (hn : 4 ≤ n) (hM : n ≤ M) {D : Nat} (hD : n ≤ D + 1)
    (hok : DegOk rot D M (List.range' 1 g.N)) {F : Nat → Nat → Nat} (hF : ∀ w f, F w f / 2 = f / 2) :
    ∃ F' ok, testComplete (g.relabel F) n (degCounts rot D (List.range' 1 g.N)) (imageOf rot M (List.range' 1 g.N)) =
        some (g.relabel F', ok) ∧ (∀ w f, F' w f / 2 = f / 2) ∧
      (ok = true → (∀ v, 1 ≤ v → v ≤ g.N → (rot v).length = 0 ∨ (rot v).length = 2 ∨ (rot v).length = n - 1) ∧
        (bigVerts rot (List.range' 1 g.N)).length = n ∧ PairsOk h (bigVerts rot (List.range' 1 g.N)) (completePairs n) ∧
        UsedOk h (bigVerts rot (List.range' 1 g.N)) (completePairs n)) ∧
      ((∀ v, 1 ≤ v → v ≤ g.N → (rot v).length = 0 ∨ (rot v).length = 2 ∨ (rot v).length = n - 1) →
        (bigVerts rot (List.range' 1 g.N)).length = n → PairsOk h (bigVerts rot (List.range' 1 g.N)) (completePairs n) →
        UsedOk h (bigVerts rot (List.range' 1 g.N)) (completePairs n) →
        UniqueOk h (bigVerts rot (List.range' 1 g.N)) (completePairs n) → ok = true) := by
  set P := List.range' 1 g.N with hP
  have hPm : ∀ v, v ∈ P ↔ 1 ≤ v ∧ v ≤ g.N := by
    intro v; rw [hP, List.mem_range'_1]; omega
  have hPl : P.length = g.N := by rw [hP, List.length_range']
  unfold testComplete
  rw [degCounts_get (by omega), degCounts_get (by omega), degCounts_get (by omega)]
  simp only [Option.bind_eq_bind, Option.bind_some]
  have hN : (g.relabel F).N = g.N := rfl
  rw [hN]
  obtain ⟨-, c2⟩ := degrees_of_counts (rot := rot) (k := n - 1) (by omega) P
  rw [hPl] at c2
  have c2' : (∀ v, 1 ≤ v → v ≤ g.N → (rot v).length = 0 ∨ (rot v).length = 2 ∨ (rot v).length = n - 1) ↔
      (∀ v ∈ P, (rot v).length = 0 ∨ (rot v).length = 2 ∨ (rot v).length = n - 1) :=
    ⟨fun hh v hv => hh v ((hPm v).1 hv).1 ((hPm v).1 hv).2, fun hh v h1 h2 => hh v ((hPm v).2 ⟨h1, h2⟩)⟩
  by_cases k1 : P.countP (fun u => decide ((rot u).length = n - 1)) ≠ n
  · rw [if_pos k1]
    refine ⟨F, false, rfl, hF, fun hc => (by cases hc), fun q1 q2 _ _ _ => ?_⟩
    rw [bigVerts_of (by omega) (c2'.1 q1), ← List.countP_eq_length_filter] at q2
    exact absurd q2 k1
  rw [if_neg k1]
  by_cases k2 : P.countP (fun u => decide ((rot u).length = 0)) + P.countP (fun u => decide ((rot u).length = 2)) +
      P.countP (fun u => decide ((rot u).length = n - 1)) ≠ g.N
  · rw [if_pos k2]
    refine ⟨F, false, rfl, hF, fun hc => (by cases hc), fun q1 _ _ _ _ => ?_⟩
    exact absurd (c2.2 (c2'.1 q1)) k2
  rw [if_neg k2]
  have q1 := c2.1 (not_not.1 k2)
  have q2 : (bigVerts rot P).length = n := by
    rw [bigVerts_of (by omega) q1, ← List.countP_eq_length_filter]
    exact not_not.1 k1
  have hmem : ∀ i, i < n → (imageOf rot M P)[i]! = (bigVerts rot P)[i]! := by
    intro i hi
    rw [getElem!_pos _ i (by unfold imageOf; rw [List.length_append]; omega), getElem!_pos _ i (by omega)]
    unfold imageOf
    rw [List.getElem_append_left]
  have hpr : ∀ p ∈ completePairs n, p.1 < n ∧ p.2 < n := by
    intro p hp
    unfold completePairs at hp
    obtain ⟨v, hv, hp⟩ := List.mem_flatMap.1 hp
    obtain ⟨w, hw, rfl⟩ := List.mem_map.1 hp
    exact ⟨List.mem_range.1 hv, List.mem_range.1 (List.mem_of_mem_filter hw)⟩
  have hbig : ∀ i, i < n → (bigVerts rot P)[i]! ∈ bigVerts rot P := by
    intro i hi
    rw [getElem!_pos _ i (by omega)]
    exact List.getElem_mem _
  obtain ⟨F', ok, e, f1, f2, f3⟩ := finish_spec h (verts := imageOf rot M P) (ps := completePairs n) (D := D) (by omega)
    (ds := degCounts rot D P) rfl
    (fun p hp => by
      have := hpr p hp
      unfold imageOf
      rw [List.length_append]
      omega)
    (fun p hp => by
      rw [hmem p.1 (hpr p hp).1]
      obtain ⟨h1, h2⟩ := mem_bigVerts.1 (hbig p.1 (hpr p hp).1)
      have h1 := (hPm _).1 h1
      refine ⟨by unfold vSize; omega, by omega⟩)
    hF
  refine ⟨F', ok, e, f1, ?_, ?_⟩
  · intro hok
    obtain ⟨p1, p2⟩ := f2 hok
    refine ⟨c2'.2 q1, q2, ?_, ?_⟩
    · intro p hp
      have := p1 p hp
      rwa [hmem p.1 (hpr p hp).1, hmem p.2 (hpr p hp).2] at this
    · intro w h1 h2 h3
      obtain ⟨p, hp, d, m1, m2, m3⟩ := p2 w h1 h2 h3
      rw [hmem p.1 (hpr p hp).1] at m1
      rw [hmem p.2 (hpr p hp).2] at m2
      exact ⟨p, hp, d, m1, m2, m3⟩
  · intro _ _ p1 p2 p3
    refine f3 ?_ ?_ ?_
    · intro p hp
      rw [hmem p.1 (hpr p hp).1, hmem p.2 (hpr p hp).2]
      exact p1 p hp
    · intro w h1 h2 h3
      obtain ⟨p, hp, d, m1, m2, m3⟩ := p2 w h1 h2 h3
      rw [← hmem p.1 (hpr p hp).1] at m1
      rw [← hmem p.2 (hpr p hp).2] at m2
      exact ⟨p, hp, d, m1, m2, m3⟩
    · intro p hp
      rw [hmem p.1 (hpr p hp).1, hmem p.2 (hpr p hp).2]
      exact p3 p hp

/-! ### K3,3 -/

omit h in
theorem exchange_eq {l : List Nat} {i j : Nat} (hi : i < l.length) (hj : j < l.length) :
    exchange l i j = some ((l.set i l[j]!).set j l[i]!) := by
  unfold exchange wr
  rw [List.getElem?_eq_getElem hi, List.getElem?_eq_getElem hj]
  simp only [Option.bind_eq_bind, Option.bind_some]
  rw [if_pos hi]
  simp only [Option.bind_some, List.length_set]
  rw [if_pos hj, getElem!_pos l j hj, getElem!_pos l i hi]

omit h in
theorem exchange_perm {l : List Nat} {i j : Nat} (hi : i < l.length) (hj : j < l.length) :
    ((l.set i l[j]!).set j l[i]!).Perm l := by
  rw [getElem!_pos l j hj, getElem!_pos l i hi]
  exact List.set_set_perm hi hj

omit h in
theorem exchange_get {l : List Nat} {i j k : Nat} (hi : i < l.length) (hj : j < l.length) (hk : k < l.length) :
    ((l.set i l[j]!).set j l[i]!)[k]! = if k = j then l[i]! else if k = i then l[j]! else l[k]! := by
  rw [getElem!_pos _ k (by simpa using hk), List.getElem_set, List.getElem_set]
  by_cases h1 : k = j
  · subst h1; simp
  · rw [if_neg (fun hc => h1 hc.symm), if_neg h1]
    by_cases h2 : k = i
    · subst h2; simp
    · rw [if_neg (fun hc => h2 hc.symm), if_neg h2, getElem!_pos l k hk]

/-- The vertices can be used as ends of paths. -/
def Good (verts : List Nat) : Prop := ∀ v ∈ verts, v < g.vSize ∧ (rot v).length ≠ 2

omit h in
theorem get_mem {l : List Nat} {i : Nat} (hi : i < l.length) : l[i]! ∈ l := by
  rw [getElem!_pos l i hi]; exact List.getElem_mem _

/-- The loop that looks for a vertex of the other side. -/
theorem partnerLoop_spec {pos : Nat} (hpos : 3 ≤ pos) : ∀ fuel k (F : Nat → Nat → Nat) (verts : List Nat),
    k < 3 → 3 ≤ fuel + k → pos < verts.length → Good (g := g) (rot := rot) verts → (∀ w f, F w f / 2 = f / 2) →
    ∃ F' verts' ok, partnerLoop pos fuel k (g.relabel F) verts = some (g.relabel F', verts', ok) ∧
      (∀ w f, F' w f / 2 = f / 2) ∧ verts'.Perm verts ∧
      (ok = true ↔ Conn h verts[pos]! verts[0]! ∨ ∃ m, k < m ∧ m < 3 ∧ Conn h verts[m]! verts[0]!) ∧
      (ok = true → verts'[0]! = verts[0]! ∧ (∀ j, 3 ≤ j → j ≠ pos → j < verts.length → verts'[j]! = verts[j]!) ∧
        Conn h verts'[pos]! verts'[0]!) := by
  intro fuel
  induction fuel with
  | zero => intro k F verts hk hf; omega
  | succ fuel ih =>
    intro k F verts hk hf hpl hG hF
    unfold partnerLoop
    have e1 : verts[pos]? = some verts[pos]! := by rw [List.getElem?_eq_getElem hpl, getElem!_pos verts pos hpl]
    have e2 : verts[0]? = some verts[0]! := by
      rw [List.getElem?_eq_getElem (by omega), getElem!_pos verts 0 (by omega)]
    rw [e1, e2]
    simp only [Option.bind_eq_bind, Option.bind_some]
    obtain ⟨u1, u2⟩ := hG _ (get_mem hpl)
    obtain ⟨F1, ok, t1, t2, t3⟩ := testPath_spec h verts[0]! u1 (fun d hd => ends_of h (by rw [hd]; exact u2)) hF
    rw [t1]
    simp only [Option.bind_some]
    cases ok with
    | true =>
      simp only [if_true]
      obtain ⟨d, k1, k2, k3⟩ := t2 rfl
      exact ⟨F1, verts, true, rfl, k3.high, List.Perm.refl _, ⟨fun _ => .inl ⟨d, k1, k2⟩, fun _ => rfl⟩,
        fun _ => ⟨rfl, fun _ _ _ _ => rfl, ⟨d, k1, k2⟩⟩⟩
    | false =>
      simp only [Bool.false_eq_true, if_false]
      obtain ⟨k1, k2⟩ := t3 rfl
      subst k1
      have hkl : k + 1 < verts.length := by omega
      rw [exchange_eq hkl hpl]
      simp only [Option.bind_some]
      have hx := exchange_perm hkl hpl
      have hgt := fun m (hm : m < verts.length) => exchange_get hkl hpl hm
      set v1 := (verts.set (k + 1) verts[pos]!).set pos verts[k + 1]! with hv1
      have hno : ¬ Conn h verts[pos]! verts[0]! := fun ⟨d, m1, m2⟩ => k2 d m1 m2
      by_cases k3 : k + 1 < 3
      · rw [if_pos k3]
        have hl : v1.length = verts.length := hx.length_eq
        obtain ⟨F', verts', ok, i1, i2, i3, i4, i5⟩ := ih (k + 1) F1 v1 k3 (by omega) (by omega)
          (fun v hv => hG v (hx.subset hv)) hF
        refine ⟨F', verts', ok, i1, i2, i3.trans hx, ?_, ?_⟩
        · rw [i4, hgt pos hpl, hgt 0 (by omega), if_pos rfl, if_neg (by omega), if_neg (by omega)]
          constructor
          · rintro (h1 | ⟨m, h1, h2, h3⟩)
            · exact .inr ⟨k + 1, by omega, k3, h1⟩
            · rw [hgt m (by omega), if_neg (by omega), if_neg (by omega)] at h3
              exact .inr ⟨m, by omega, h2, h3⟩
          · rintro (h1 | ⟨m, h1, h2, h3⟩)
            · exact absurd h1 hno
            · by_cases hm : m = k + 1
              · subst hm; exact .inl h3
              · refine .inr ⟨m, by omega, h2, ?_⟩
                rw [hgt m (by omega), if_neg (by omega), if_neg (by omega)]
                exact h3
        · intro hok
          obtain ⟨j1, j2, j3⟩ := i5 hok
          refine ⟨?_, ?_, j3⟩
          · rw [j1, hgt 0 (by omega), if_neg (by omega), if_neg (by omega)]
          · intro j a1 a2 a3
            rw [j2 j a1 a2 (by omega), hgt j a3, if_neg a2, if_neg (by omega)]
      · rw [if_neg k3]
        refine ⟨F1, v1, false, rfl, hF, hx, ⟨fun hc => (by cases hc), ?_⟩, fun hc => (by cases hc)⟩
        rintro (h1 | ⟨m, h1, h2, -⟩)
        · exact absurd h1 hno
        · omega

/-- The partition keeps the vertices. -/
theorem partition_perm : ∀ (ps : List Nat) (F : Nat → Nat → Nat) (verts : List Nat),
    (∀ pos ∈ ps, 3 ≤ pos ∧ pos < verts.length) → Good (g := g) (rot := rot) verts → (∀ w f, F w f / 2 = f / 2) →
    ∃ F' verts' ok, partition ps (g.relabel F) verts = some (g.relabel F', verts', ok) ∧
      (∀ w f, F' w f / 2 = f / 2) ∧ verts'.Perm verts := by
  intro ps
  induction ps with
  | nil => intro F verts _ _ hF; exact ⟨F, verts, true, rfl, hF, List.Perm.refl _⟩
  | cons pos ps ih =>
    intro F verts hp hG hF
    unfold partition
    obtain ⟨F1, v1, ok, e1, k1, k2, -, -⟩ := partnerLoop_spec h (hp pos (by simp)).1 3 0 F verts (by omega) (by omega)
      (hp pos (by simp)).2 hG hF
    rw [e1]
    simp only [Option.bind_eq_bind, Option.bind_some]
    cases ok with
    | false => exact ⟨F1, v1, false, rfl, k1, k2⟩
    | true =>
      simp only [if_true]
      obtain ⟨F', v', ok, e2, k3, k4⟩ := ih F1 v1
        (fun q hq => by rw [k2.length_eq]; exact hp q (by simp [hq])) (fun v hv => hG v (k2.subset hv)) k1
      exact ⟨F', v', ok, e2, k3, k4.trans k2⟩

/-- The partition succeeds when the paths join the vertices of two sides of three. -/
theorem partition_ok {A : Nat → Prop} : ∀ (ps : List Nat) (F : Nat → Nat → Nat) (verts : List Nat), ps.Nodup →
    (∀ pos ∈ ps, 3 ≤ pos ∧ pos < verts.length) → Good (g := g) (rot := rot) verts → (∀ w f, F w f / 2 = f / 2) →
    (∀ u ∈ verts, ∀ v ∈ verts, (Conn h u v ↔ ¬ (A u ↔ A v))) →
    (∀ u1 u2 u3 u4, [u1, u2, u3, u4].Subperm verts → ¬ ((A u1 ↔ A u2) ∧ (A u1 ↔ A u3) ∧ (A u1 ↔ A u4))) →
    verts.Nodup →
    ∃ F' verts', partition ps (g.relabel F) verts = some (g.relabel F', verts', true) ∧
      (∀ w f, F' w f / 2 = f / 2) ∧ verts'.Perm verts ∧ verts'[0]! = verts[0]! ∧
      (∀ j, 3 ≤ j → j ∉ ps → j < verts.length → verts'[j]! = verts[j]!) ∧
      ∀ j ∈ ps, ¬ (A verts'[j]! ↔ A verts'[0]!) := by
  intro ps
  induction ps with
  | nil => intro F verts _ _ _ hF _ _ _; exact ⟨F, verts, rfl, hF, List.Perm.refl _, rfl, fun _ _ _ _ => rfl, by simp⟩
  | cons pos ps ih =>
    intro F verts hnd hp hG hF hC hA hvn
    unfold partition
    obtain ⟨p1, p2⟩ := hp pos (by simp)
    obtain ⟨F1, v1, ok, e1, k1, k2, k3, k4⟩ := partnerLoop_spec h p1 3 0 F verts (by omega) (by omega) p2 hG hF
    have hok : ok = true := by
      rw [k3]
      by_contra hc
      rw [not_or] at hc
      obtain ⟨c1, c2⟩ := hc
      have hs : ∀ m, m < verts.length → ¬ Conn h verts[m]! verts[0]! → (A verts[0]! ↔ A verts[m]!) := by
        intro m hm hn
        have := not_not.1 (mt (hC _ (get_mem hm) _ (get_mem (by omega))).2 hn)
        exact this.symm
      refine hA verts[0]! verts[1]! verts[2]! verts[pos]! ?_ ⟨hs 1 (by omega) ?_, hs 2 (by omega) ?_, hs pos p2 c1⟩
      · refine List.subperm_of_subset ?_ ?_
        · have hne : ∀ i j, i < verts.length → j < verts.length → i ≠ j → verts[i]! ≠ verts[j]! := by
            intro i j hi hj hij he
            rw [getElem!_pos verts i hi, getElem!_pos verts j hj] at he
            exact hij (hvn.getElem_inj_iff.1 he)
          have l := p2
          simp only [List.nodup_cons, List.mem_cons, List.not_mem_nil, or_false, not_or, List.nodup_nil, and_true,
            not_false_eq_true]
          exact ⟨⟨hne 0 1 (by omega) (by omega) (by omega), hne 0 2 (by omega) (by omega) (by omega),
            hne 0 pos (by omega) l (by omega)⟩, ⟨hne 1 2 (by omega) (by omega) (by omega),
            hne 1 pos (by omega) l (by omega)⟩, hne 2 pos (by omega) l (by omega)⟩
        · intro u hu
          simp only [List.mem_cons, List.not_mem_nil, or_false] at hu
          rcases hu with rfl | rfl | rfl | rfl
          · exact get_mem (by omega)
          · exact get_mem (by omega)
          · exact get_mem (by omega)
          · exact get_mem p2
      · exact fun hc => c2 ⟨1, by omega, by omega, hc⟩
      · exact fun hc => c2 ⟨2, by omega, by omega, hc⟩
    subst hok
    rw [e1]
    simp only [Option.bind_eq_bind, Option.bind_some, if_true]
    obtain ⟨q1, q2, q3⟩ := k4 rfl
    obtain ⟨F', v', e2, m1, m2, m3, m4, m5⟩ := ih F1 v1 (List.nodup_cons.1 hnd).2
      (fun q hq => by rw [k2.length_eq]; exact hp q (by simp [hq])) (fun v hv => hG v (k2.subset hv)) k1
      (fun u hu v hv => hC u (k2.subset hu) v (k2.subset hv))
      (fun a b c d hs => hA a b c d (hs.trans k2.subperm)) (k2.nodup_iff.2 hvn)
    refine ⟨F', v', e2, m1, m2.trans k2, m3.trans q1, ?_, ?_⟩
    · intro j j1 j2 j3
      rw [m4 j j1 (fun hc => j2 (by simp [hc])) (by rw [k2.length_eq]; exact j3),
        q2 j j1 (fun hc => j2 (by simp [hc])) j3]
    · intro j hj
      rcases List.mem_cons.1 hj with rfl | hj
      · rw [m4 j p1 (List.nodup_cons.1 hnd).1 (by rw [k2.length_eq]; exact p2), m3]
        exact (hC _ (k2.subset (get_mem (by rw [k2.length_eq]; exact p2))) _
          (k2.subset (get_mem (by rw [k2.length_eq]; omega)))).1 q3
      · exact m5 j hj

end
end Test
end Verif
