import Verif.Test.Subdiv

/-
What `_getImageVertices` and the loops over pairs of image vertices compute.
-/
namespace Verif
namespace Test
open Graph Map Equiv Equiv.Perm Props DFS

/-- The entries of `degrees` after the vertices `P`. -/
def degCounts (rot : Nat → List Nat) (D : Nat) (P : List Nat) : List Nat :=
  (List.range (D + 1)).map fun k => P.countP fun v => decide ((rot v).length = k)

/-- The vertices of degree at least three. -/
def bigVerts (rot : Nat → List Nat) (P : List Nat) : List Nat := P.filter fun v => decide (2 < (rot v).length)

/-- The array of the image vertices. -/
def imageOf (rot : Nat → List Nat) (M : Nat) (P : List Nat) : List Nat :=
  bigVerts rot P ++ List.replicate (M - (bigVerts rot P).length) 0

/-- The degrees are possible. -/
def DegOk (rot : Nat → List Nat) (D M : Nat) (P : List Nat) : Prop :=
  (∀ v ∈ P, (rot v).length ≠ 1 ∧ (rot v).length ≤ D) ∧ (bigVerts rot P).length ≤ M

theorem degCounts_snoc {rot : Nat → List Nat} {D : Nat} {P : List Nat} {v : Nat} (hv : (rot v).length ≤ D) :
    wr (degCounts rot D P) (rot v).length (P.countP (fun u => decide ((rot u).length = (rot v).length)) + 1) =
      some (degCounts rot D (P ++ [v])) := by
  unfold wr
  rw [if_pos (by unfold degCounts; simp; omega)]
  congr 1
  apply List.ext_getElem
  · unfold degCounts; simp
  · intro i h1 h2
    rw [List.getElem_set]
    unfold degCounts
    simp only [List.getElem_map, List.getElem_range, List.countP_append, List.countP_singleton]
    by_cases hi : (rot v).length = i
    · rw [if_pos hi]; simp [hi]
    · rw [if_neg hi]; simp [hi]

theorem degCounts_get {rot : Nat → List Nat} {D : Nat} {P : List Nat} {k : Nat} (hk : k ≤ D) :
    (degCounts rot D P)[k]? = some (P.countP fun u => decide ((rot u).length = k)) := by
  unfold degCounts
  rw [List.getElem?_map, List.getElem?_range (by omega)]
  rfl

theorem bigVerts_snoc {rot : Nat → List Nat} {P : List Nat} {v : Nat} :
    bigVerts rot (P ++ [v]) = bigVerts rot P ++ if 2 < (rot v).length then [v] else [] := by
  unfold bigVerts
  rw [List.filter_append]
  congr 1
  by_cases h : 2 < (rot v).length
  · simp [h]
  · simp [h]

section
variable {g : Graph} {rot : Nat → List Nat} (h : WInv g rot)
include h

theorem imageStep_spec {D M : Nat} {P : List Nat} {v : Nat} (h1 : 1 ≤ v) (hv : v ≤ g.N) (hP : DegOk rot D M P) :
    (DegOk rot D M (P ++ [v]) → imageStep g D M (degCounts rot D P, imageOf rot M P, (bigVerts rot P).length) v =
      some (some (degCounts rot D (P ++ [v]), imageOf rot M (P ++ [v]), (bigVerts rot (P ++ [v])).length))) ∧
    (¬ DegOk rot D M (P ++ [v]) →
      imageStep g D M (degCounts rot D P, imageOf rot M P, (bigVerts rot P).length) v = some none) := by
  unfold imageStep
  rw [degree_eq h h1 (by unfold vSize; omega)]
  simp only [Option.bind_eq_bind, Option.bind_some]
  have hiff : DegOk rot D M (P ++ [v]) ↔ (rot v).length ≠ 1 ∧ (rot v).length ≤ D ∧
      (2 < (rot v).length → (bigVerts rot P).length < M) := by
    unfold DegOk
    rw [bigVerts_snoc]
    constructor
    · rintro ⟨k1, k2⟩
      obtain ⟨k3, k4⟩ := k1 v (by simp)
      refine ⟨k3, k4, fun k5 => ?_⟩
      rw [if_pos k5] at k2
      simp at k2
      omega
    · rintro ⟨k1, k2, k3⟩
      refine ⟨fun u hu => ?_, ?_⟩
      · rcases List.mem_append.1 hu with hu | hu
        · exact hP.1 u hu
        · rw [List.mem_singleton.1 hu]; exact ⟨k1, k2⟩
      · by_cases k4 : 2 < (rot v).length
        · rw [if_pos k4]
          have := k3 k4
          simp
          omega
        · rw [if_neg k4]
          simpa using hP.2
  rw [hiff]
  by_cases k1 : (rot v).length = 1
  · rw [if_pos k1]
    exact ⟨fun hc => absurd k1 hc.1, fun _ => rfl⟩
  rw [if_neg k1]
  by_cases k2 : (rot v).length > D
  · rw [if_pos k2]
    exact ⟨fun hc => absurd hc.2.1 (by omega), fun _ => rfl⟩
  rw [if_neg k2, degCounts_get (by omega)]
  simp only [Option.bind_some]
  rw [degCounts_snoc (by omega)]
  simp only [Option.bind_some]
  by_cases k3 : 2 < (rot v).length
  · by_cases k4 : (bigVerts rot P).length < M
    · rw [if_pos ⟨k4, k3⟩]
      refine ⟨fun _ => ?_, fun hc => absurd ⟨k1, by omega, fun _ => k4⟩ hc⟩
      have hw : wr (imageOf rot M P) (bigVerts rot P).length v = some (imageOf rot M (P ++ [v])) := by
        unfold wr imageOf
        rw [if_pos (by simp; omega), bigVerts_snoc, if_pos k3]
        congr 1
        rw [List.set_append_right _ _ (by omega)]
        rw [show M - (bigVerts rot P).length = (M - (bigVerts rot P).length - 1) + 1 by omega, List.replicate_succ]
        simp only [Nat.sub_self, List.set_cons_zero, List.length_append, List.length_singleton, List.append_assoc,
          List.singleton_append]
        congr 3
      rw [hw]
      simp only [Option.bind_some]
      rw [bigVerts_snoc, if_pos k3]
      simp
    · rw [if_neg (fun hc => k4 hc.1), if_pos k3]
      exact ⟨fun hc => absurd (hc.2.2 k3) k4, fun _ => rfl⟩
  · rw [if_neg (fun hc => k3 hc.2), if_neg k3]
    refine ⟨fun _ => ?_, fun hc => absurd ⟨k1, by omega, fun hc => absurd hc k3⟩ hc⟩
    have hb : bigVerts rot (P ++ [v]) = bigVerts rot P := by rw [bigVerts_snoc, if_neg k3, List.append_nil]
    unfold imageOf
    rw [hb]
    rfl

omit h in
theorem DegOk.prefix {D M : Nat} {P Q : List Nat} (hP : DegOk rot D M (P ++ Q)) : DegOk rot D M P := by
  refine ⟨fun v hv => hP.1 v (by simp [hv]), ?_⟩
  have := hP.2
  unfold bigVerts at this ⊢
  rw [List.filter_append, List.length_append] at this
  omega

theorem imageLoop_spec {D M : Nat} : ∀ k v, v + k = g.N + 1 → 1 ≤ v → DegOk rot D M (List.range' 1 (v - 1)) →
    (DegOk rot D M (List.range' 1 g.N) →
      imageLoop g D M k v (degCounts rot D (List.range' 1 (v - 1)), imageOf rot M (List.range' 1 (v - 1)),
        (bigVerts rot (List.range' 1 (v - 1))).length) =
      some (some (degCounts rot D (List.range' 1 g.N), imageOf rot M (List.range' 1 g.N),
        (bigVerts rot (List.range' 1 g.N)).length))) ∧
    (¬ DegOk rot D M (List.range' 1 g.N) →
      imageLoop g D M k v (degCounts rot D (List.range' 1 (v - 1)), imageOf rot M (List.range' 1 (v - 1)),
        (bigVerts rot (List.range' 1 (v - 1))).length) = some none) := by
  intro k
  induction k with
  | zero =>
    intro v hk h1 hP
    rw [show v - 1 = g.N by omega] at hP ⊢
    exact ⟨fun _ => rfl, fun hc => absurd hP hc⟩
  | succ k ih =>
    intro v hk h1 hP
    unfold imageLoop
    have hr : List.range' 1 (v - 1) ++ [v] = List.range' 1 (v + 1 - 1) := by
      rw [show v + 1 - 1 = (v - 1) + 1 by omega, List.range'_concat]
      congr 2
      omega
    obtain ⟨s1, s2⟩ := imageStep_spec h (D := D) (M := M) h1 (by omega : v ≤ g.N) hP
    rw [hr] at s1 s2
    by_cases hok : DegOk rot D M (List.range' 1 (v + 1 - 1))
    · rw [s1 hok]
      simp only [Option.bind_eq_bind, Option.bind_some]
      exact ih (v + 1) (by omega) (by omega) hok
    · rw [s2 hok]
      simp only [Option.bind_eq_bind, Option.bind_some]
      refine ⟨fun hc => ?_, fun _ => rfl⟩
      exfalso
      apply hok
      have : List.range' 1 g.N = List.range' 1 (v + 1 - 1) ++ List.range' (1 + 1 * (v + 1 - 1)) (g.N - (v + 1 - 1)) := by
        rw [List.range'_append]
        congr 1
        omega
      rw [this] at hc
      exact hc.prefix

/-- `_getImageVertices`. -/
theorem imageVertices_spec (D M : Nat) :
    (DegOk rot D M (List.range' 1 g.N) →
      imageVertices g D M = some (some (degCounts rot D (List.range' 1 g.N), imageOf rot M (List.range' 1 g.N)))) ∧
    (¬ DegOk rot D M (List.range' 1 g.N) → imageVertices g D M = some none) := by
  have h0 : DegOk rot D M (List.range' 1 (1 - 1)) := ⟨fun v hv => by simp at hv, by simp [bigVerts]⟩
  obtain ⟨s1, s2⟩ := imageLoop_spec h (D := D) (M := M) g.N 1 (by omega) le_rfl h0
  have hs : (degCounts rot D (List.range' 1 (1 - 1)), imageOf rot M (List.range' 1 (1 - 1)),
      (bigVerts rot (List.range' 1 (1 - 1))).length) = (List.replicate (D + 1) 0, List.replicate M 0, 0) := by
    unfold degCounts imageOf bigVerts
    simp
  rw [hs] at s1 s2
  unfold imageVertices
  constructor
  · intro hok
    rw [s1 hok]; rfl
  · intro hok
    rw [s2 hok]; rfl

/-- The tests of a list of pairs. -/
theorem testPairs_spec {verts : List Nat} : ∀ (ps : List (Nat × Nat)) {F : Nat → Nat → Nat}, (∀ w f, F w f / 2 = f / 2) →
    (∀ p ∈ ps, p.1 < verts.length ∧ p.2 < verts.length) →
    (∀ p ∈ ps, verts[p.1]! < g.vSize ∧ (rot verts[p.1]!).length ≠ 2) →
    ∃ F' ok S, testPairs verts ps (g.relabel F) = some (g.relabel F', ok) ∧
      (ok = true ↔ ∀ p ∈ ps, ∃ d : Dart rot, own g d = verts[p.1]! ∧ fin h d = verts[p.2]!) ∧ Adds F F' S ∧
      (∀ w, S w → ∃ p ∈ ps, ∃ d : Dart rot, own g d = verts[p.1]! ∧ fin h d = verts[p.2]! ∧ w ∈ ins h d) ∧
      (ok = true → ∀ p ∈ ps, ∃ d : Dart rot, own g d = verts[p.1]! ∧ fin h d = verts[p.2]! ∧ ∀ w ∈ ins h d, S w) := by
  intro ps
  induction ps with
  | nil =>
    intro F hF _ _
    exact ⟨F, true, fun _ => False, rfl, by simp, Adds.refl hF, fun _ hc => hc.elim, fun _ p hp => by cases hp⟩
  | cons p ps ih =>
    intro F hF hv hU
    obtain ⟨l1, l2⟩ := hv p (by simp)
    obtain ⟨u1, u2⟩ := hU p (by simp)
    have e1 : verts[p.1]? = some verts[p.1]! := by
      rw [List.getElem?_eq_getElem l1, getElem!_pos verts p.1 l1]
    have e2 : verts[p.2]? = some verts[p.2]! := by
      rw [List.getElem?_eq_getElem l2, getElem!_pos verts p.2 l2]
    unfold testPairs
    rw [e1, e2]
    simp only [Option.bind_eq_bind, Option.bind_some]
    obtain ⟨F1, ok, t1, t2, t3⟩ := testPath_spec h verts[p.2]! u1 (fun d hd => ends_of h (by rw [hd]; exact u2)) hF
    rw [t1]
    simp only [Option.bind_some]
    cases ok with
    | false =>
      simp only [Bool.false_eq_true, if_false]
      obtain ⟨k1, k2⟩ := t3 rfl
      subst k1
      refine ⟨F1, false, fun _ => False, rfl, ⟨fun hc => (by cases hc), fun hc => ?_⟩, Adds.refl hF, fun _ hc => hc.elim,
        fun hc => by cases hc⟩
      obtain ⟨d, k3, k4⟩ := hc p (by simp)
      exact absurd k4 (k2 d k3)
    | true =>
      simp only [if_true]
      obtain ⟨d, k1, k2, k3⟩ := t2 rfl
      obtain ⟨F', ok, S, i1, i2, i3, i4, i5⟩ := ih k3.high (fun q hq => hv q (by simp [hq])) (fun q hq => hU q (by simp [hq]))
      refine ⟨F', ok, _, i1, ?_, k3.trans i3, ?_, ?_⟩
      · rw [i2]
        constructor
        · intro hh q hq
          rcases List.mem_cons.1 hq with rfl | hq
          · exact ⟨d, k1, k2⟩
          · exact hh q hq
        · intro hh q hq
          exact hh q (by simp [hq])
      · rintro w (hw | hw)
        · exact ⟨p, by simp, d, k1, k2, hw⟩
        · obtain ⟨q, hq, hd⟩ := i4 w hw
          exact ⟨q, by simp [hq], hd⟩
      · intro hok q hq
        rcases List.mem_cons.1 hq with rfl | hq
        · exact ⟨d, k1, k2, fun w hw => .inl hw⟩
        · obtain ⟨d', m1, m2, m3⟩ := i5 hok q hq
          exact ⟨d', m1, m2, fun w hw => .inr (m3 w hw)⟩

omit h in
theorem countVisited_eq (g : Graph) :
    countVisited g = some ((List.range' 1 g.N).countP fun w => decide ((g.V w).flags % 2 = 1)) := by
  have key : ∀ k, k ≤ g.N → (List.range k).foldlM
      (fun (k : Nat) i => do return if ← g.visited (i + 1) then k + 1 else k) 0 =
      some ((List.range' 1 k).countP fun w => decide ((g.V w).flags % 2 = 1)) := by
    intro k
    induction k with
    | zero => intro _; rfl
    | succ k ih =>
      intro hk
      rw [List.range_succ, List.foldlM_append, ih (by omega)]
      have hv : g.visited (k + 1) = some (decide ((g.V (k + 1)).flags % 2 = 1)) := by
        unfold visited rdV
        rw [if_pos (by unfold vSize; omega)]; rfl
      simp only [Option.bind_eq_bind, Option.bind_some, List.foldlM_cons, List.foldlM_nil, hv]
      rw [List.range'_concat, List.countP_append, List.countP_singleton]
      show some _ = some _
      congr 1
      rw [show 1 + 1 * k = k + 1 by omega]
      by_cases hc : (g.V (k + 1)).flags % 2 = 1 <;> simp [hc]
  exact key _ le_rfl

omit h in
/-- Equal counts of a set and a subset. -/
theorem countP_eq_iff {P : List Nat} {p q : Nat → Bool} (hpq : ∀ w ∈ P, p w = true → q w = true) :
    P.countP q = P.countP p ↔ ∀ w ∈ P, q w = true → p w = true := by
  induction P with
  | nil => simp
  | cons a P ih =>
    have ih := ih fun w hw => hpq w (by simp [hw])
    have hle : P.countP p ≤ P.countP q := List.countP_mono_left fun w hw => hpq w (by simp [hw])
    rw [List.countP_cons, List.countP_cons]
    have ha := hpq a (by simp)
    cases hp : p a <;> cases hq : q a
    · simp only [Bool.false_eq_true, if_false, Nat.add_zero, List.forall_mem_cons, ih, hp, hq]
      simp
    · simp only [if_true, Bool.false_eq_true, if_false, List.forall_mem_cons, hp, hq]
      constructor
      · intro hc; omega
      · intro hc; exact absurd (hc.1 trivial) (by simp)
    · rw [hp, hq] at ha; simp at ha
    · simp only [if_true, List.forall_mem_cons, hp, hq]
      constructor
      · intro hc; exact ⟨fun _ => trivial, ih.1 (by omega)⟩
      · intro hc; have := ih.2 hc.2; omega

end
end Test
end Verif
