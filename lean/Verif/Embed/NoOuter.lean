import Verif.Embed.Complete

/-
Plane embeddings with all vertices on one face, and K4 and K2,3.
-/
namespace Verif.Embed
open Verif Verif.Graph Verif.EGraph Verif.DFS Equiv Equiv.Perm Verif.Map Function Verif.Props Verif.Test

/-- A face that meets all vertices of its component. -/
theorem oneFace_outer {s : PGraph} {rot} (hs : PInv s rot) (ho : OneFace s) :
    Outer (sg hs.inv.weak) (al hs.inv.weak) := by
  classical
  have hfin := dart_finite hs.inv.weak
  have hadj : ∀ d : Dart rot, ∃ w, Adjacent s.g (own s.g d) w := fun d =>
    ⟨_, (adjacent_arc hs.inv).2 ⟨d.1, (arcTo_iff hs.inv).2 ⟨own_mem hs.inv.weak d, rfl⟩⟩⟩
  have hex : ∀ d : Dart rot, ∃ a : Dart rot, ∀ v, Joined s.g (own s.g d) v → ∃ b, SameFace s.g a.1 b ∧ s.g.ArcAt v b := by
    intro d
    have hp := hs.prim _ _ (own_mem hs.inv.weak d)
    obtain ⟨a, ⟨w, ha⟩, h⟩ := ho (own s.g d) hp (hadj d)
    exact ⟨⟨a, w, hs.inv.arcAt.1 ha⟩, h⟩
  choose a ha using hex
  let rep : Dart rot → Dart rot := fun d => (Quotient.mk (joined (sg hs.inv.weak) (al hs.inv.weak)) d).out
  have hrep : ∀ d, joined (sg hs.inv.weak) (al hs.inv.weak) (rep d) d := fun d => Quotient.mk_out (s := joined (sg hs.inv.weak) (al hs.inv.weak)) d
  have heq : ∀ d d', joined (sg hs.inv.weak) (al hs.inv.weak) d d' → rep d = rep d' := by
    intro d d' h
    exact congrArg Quotient.out (Quotient.sound (s := joined (sg hs.inv.weak) (al hs.inv.weak)) h)
  refine ⟨fun d => SameFace s.g (a (rep d)).1 d.1, ?_, ?_⟩
  · intro d
    obtain ⟨b, h1, h2⟩ := ha (rep d) (own s.g d) ((joined_iff hs.inv).1 (hrep d))
    have hb := hs.inv.arcAt.1 h2
    have hsc : SameCycle (sg hs.inv.weak) d ⟨b, _, hb⟩ := (same_sg hs.inv.weak).2 (own_of hs.inv.weak hb).symm
    refine ⟨⟨b, _, hb⟩, hsc, ?_⟩
    have hle : SameCycle.setoid (sg hs.inv.weak) ≤ joined (sg hs.inv.weak) (al hs.inv.weak) := le_sup_left
    beta_reduce
    rw [← heq d _ (hle hsc)]
    exact h1
  · intro d d' h1 h2 hj
    rw [← heq d d' hj] at h2
    have k1 := (sameFace_dart hs.inv).1 h1
    have k2 := (sameFace_dart hs.inv).1 h2
    exact k1.symm.trans k2

/-- No graph that contains a graph with K4 or K2,3 as a minor has a plane embedding with all vertices of a component on one face. -/
theorem no_outer_minor {o s : PGraph} {rot rot'} (ho : PInv o rot) (hs : PInv s rot') {π : Nat → Nat} (hπ : Renaming o s π)
    (hp : PlaneEmbedding s) (hf : OneFace s) (h : (∃ S, Minor (Adjacent o.g) adjK4 S) ∨ ∃ S, Minor (Adjacent o.g) adjK23 S) : False := by
  have hfin := dart_finite hs.inv.weak
  have hadj : ∀ a b, Adjacent o.g a b → ∃ d : Dart rot', own s.g d = π a ∧ own s.g (al hs.inv.weak d) = π b := by
    intro a b hab
    obtain ⟨e, he⟩ := (adjacent_arc hs.inv).1 (hπ.adj _ _ hab)
    obtain ⟨h1, h2⟩ := (arcTo_iff hs.inv).1 he
    exact ⟨⟨e, _, h1⟩, own_of hs.inv.weak h1, by rw [own_al]; exact h2⟩
  have hV : ∀ a b, Adjacent o.g a b → (1 ≤ a ∧ a ≤ o.g.N) ∧ 1 ≤ b ∧ b ≤ o.g.N := fun a b k => adjacent_range ho k
  have hinj : ∀ a b, (1 ≤ a ∧ a ≤ o.g.N) → (1 ≤ b ∧ b ≤ o.g.N) → π a = π b → a = b :=
    fun a b ha hb he => hπ.inj a b ha.1 ha.2 hb.1 hb.2 he
  have hv : ∀ d d' : Dart rot', SameCycle (sg hs.inv.weak) d d' ↔ own s.g d = own s.g d' := fun d d' => same_sg hs.inv.weak
  rcases h with ⟨T, h⟩ | ⟨T, h⟩
  · exact Minor.false_outer (S5 := fun _ _ => False) (al_al hs.inv.weak) (al_ne hs.inv.weak) (plane_flat hs hp) (oneFace_outer hs hf) hv
      (.inl (Minor.rename (V := fun a => 1 ≤ a ∧ a ≤ o.g.N) h hV hinj hadj))
  · exact Minor.false_outer (S4 := fun _ _ => False) (al_al hs.inv.weak) (al_ne hs.inv.weak) (plane_flat hs hp) (oneFace_outer hs hf) hv
      (.inr (Minor.rename (V := fun a => 1 ≤ a ∧ a ≤ o.g.N) h hV hinj hadj))

/-- The neighbours of a vertex by a list of edges. -/
theorem mem_around {st : List (Nat × Nat)} {w x : Nat} : x ∈ around st w ↔ (w, x) ∈ st ∨ (x, w) ∈ st := by
  unfold around
  simp only [List.mem_append, List.mem_map, List.mem_filter, decide_eq_true_eq]
  constructor
  · rintro (⟨⟨p, q⟩, ⟨h1, h2⟩, h3⟩ | ⟨⟨p, q⟩, ⟨h1, h2⟩, h3⟩)
    · simp only at h2 h3; subst h2 h3; exact .inl h1
    · simp only at h2 h3; subst h2 h3; exact .inr h1
  · rintro (h | h)
    · exact .inl ⟨_, ⟨h, rfl⟩, rfl⟩
    · exact .inr ⟨_, ⟨h, rfl⟩, rfl⟩

theorem links_snoc (a : Nat) : ∀ (l : List Nat) (b : Nat), links (a :: l ++ [b]) = links (a :: l) ++ [((a :: l).getLast (by simp), b)] := by
  intro l
  induction l generalizing a with
  | nil => intro b; rfl
  | cons c l ih =>
    intro b
    have h := ih c b
    show (a, c) :: links (c :: l ++ [b]) = _
    rw [h]
    rfl

/-- The start of a chain is joined to its elements. -/
theorem chain_reach {R : Nat → Nat → Prop} {S : Nat → Prop} : ∀ (l : List Nat) (a : Nat), (∀ x y, (x, y) ∈ links (a :: l) → R x y) →
    (∀ x ∈ a :: l, S x) → ∀ x ∈ a :: l, Relation.ReflTransGen (fun p q => R p q ∧ S p ∧ S q) a x := by
  intro l
  induction l with
  | nil => intro a _ _ x hx; rw [List.mem_singleton.1 hx]
  | cons c l ih =>
    intro a hR hS x hx
    rcases List.mem_cons.1 hx with rfl | hx
    · exact .refl
    · refine .head ⟨hR a c (by simp [links]), hS a (by simp), hS c (by simp)⟩ (ih c (fun x y h => hR x y ?_) (fun y hy => hS y (by simp [List.mem_cons.1 hy])) x hx)
      show (x, y) ∈ (a, c) :: links (c :: l)
      exact List.mem_cons_of_mem _ h

/-- A subdivision has the subdivided graph as a minor. -/
theorem subdivision_minor {s : PGraph} {rot} (hI : PInv s rot) {n : Nat} {E : List (Nat × Nat)} (h : IsSubdivision s.g n E)
    (hE : E.Nodup) (hlt : ∀ p ∈ E, p.1 < n ∧ p.2 < n) : HasMinor s.g n E := by
  obtain ⟨branch, path, hnd, hrg, hnb⟩ := h
  have hst : ∀ x y, (x, y) ∈ steps branch path E → Adjacent s.g x y ∧ Adjacent s.g y x := by
    have hone : ∀ x y, (x, y) ∈ steps branch path E → 1 ≤ x ∧ x ≤ s.g.N ∧ 1 ≤ y ∧ y ≤ s.g.N := by
      intro x y hxy
      obtain ⟨p, hp, hl⟩ := List.mem_flatMap.1 hxy
      have h1 := List.of_mem_zip hl
      have hall : ∀ z ∈ branch p.1 :: path p ++ [branch p.2], 1 ≤ z ∧ z ≤ s.g.N := by
        intro z hz
        refine hrg z ?_
        simp only [List.cons_append, List.mem_cons, List.mem_append, List.not_mem_nil, or_false] at hz
        rcases hz with rfl | hz | rfl
        · exact List.mem_append_left _ (List.mem_map.2 ⟨_, List.mem_range.2 (hlt p hp).1, rfl⟩)
        · exact List.mem_append_right _ (List.mem_flatMap.2 ⟨p, hp, hz⟩)
        · exact List.mem_append_left _ (List.mem_map.2 ⟨_, List.mem_range.2 (hlt p hp).2, rfl⟩)
      obtain ⟨a1, a2⟩ := hall x h1.1
      obtain ⟨b1, b2⟩ := hall y (List.mem_of_mem_tail h1.2)
      exact ⟨a1, a2, b1, b2⟩
    intro x y hxy
    obtain ⟨r1, r2, r3, r4⟩ := hone x y hxy
    have hv : ∀ z, 1 ≤ z → z ≤ s.g.N → IsVertex s.g z := fun z h1 h2 => ⟨h1, by omega⟩
    refine ⟨?_, ?_⟩
    · obtain ⟨l, h1, h2⟩ := hnb x (hv x r1 r2)
      exact ⟨l, h1, h2.mem_iff.2 (mem_around.2 (.inl hxy))⟩
    · obtain ⟨l, h1, h2⟩ := hnb y (hv y r3 r4)
      exact ⟨l, h1, h2.mem_iff.2 (mem_around.2 (.inr hxy))⟩
  have hnd1 : ((List.range n).map branch).Nodup := (List.nodup_append.1 hnd).1
  have hnd2 : (E.flatMap path).Nodup := (List.nodup_append.1 hnd).2.1
  have hdis : ∀ a ∈ (List.range n).map branch, ∀ b ∈ E.flatMap path, a ≠ b := (List.nodup_append.1 hnd).2.2
  have hbr : ∀ i j, i < n → j < n → branch i = branch j → i = j := by
    intro i j hi hj he
    exact List.inj_on_of_nodup_map hnd1 (List.mem_range.2 hi) (List.mem_range.2 hj) he
  have hpe : ∀ p ∈ E, ∀ q ∈ E, ∀ x, x ∈ path p → x ∈ path q → p = q := by
    intro p hp q hq x h1 h2
    by_contra hne
    have : Std.Symm (Function.onFun List.Disjoint path) := ⟨fun a b h => List.Disjoint.symm h⟩
    exact (List.Pairwise.forall (List.nodup_flatMap.1 hnd2).2 hp hq hne) h1 h2
  let S : Nat → Nat → Prop := fun i a => a = branch i ∨ ∃ p ∈ E, p.1 = i ∧ a ∈ path p
  have hlink : ∀ p ∈ E, ∀ x y, (x, y) ∈ links (branch p.1 :: path p) → Adjacent s.g x y ∧ Adjacent s.g y x := by
    intro p hp x y hxy
    refine hst x y (List.mem_flatMap.2 ⟨p, hp, ?_⟩)
    rw [links_snoc]
    exact List.mem_append_left _ hxy
  have hin : ∀ p ∈ E, ∀ x ∈ branch p.1 :: path p, S p.1 x := by
    intro p hp x hx
    rcases List.mem_cons.1 hx with rfl | hx
    · exact .inl rfl
    · exact .inr ⟨p, hp, rfl, hx⟩
  refine ⟨S, fun i _ => ⟨branch i, .inl rfl⟩, ?_, ?_, ?_, ?_⟩
  · rintro i j a hi hj (rfl | ⟨p, p1, p2, p3⟩) (h2 | ⟨q, q1, q2, q3⟩)
    · exact hbr i j hi hj h2
    · exact absurd rfl (hdis _ (List.mem_map.2 ⟨i, List.mem_range.2 hi, rfl⟩) _ (List.mem_flatMap.2 ⟨q, q1, q3⟩))
    · subst h2
      exact absurd rfl (hdis _ (List.mem_map.2 ⟨j, List.mem_range.2 hj, rfl⟩) _ (List.mem_flatMap.2 ⟨p, p1, p3⟩))
    · have := hpe p p1 q q1 a p3 q3
      rw [← p2, ← q2, this]
  · rintro i a hi (rfl | ⟨p, p1, p2, p3⟩)
    · exact hrg _ (List.mem_append_left _ (List.mem_map.2 ⟨i, List.mem_range.2 hi, rfl⟩))
    · exact hrg _ (List.mem_append_right _ (List.mem_flatMap.2 ⟨p, p1, p3⟩))
  · intro i a b hi ha hb
    have hroot : ∀ x, S i x → Relation.ReflTransGen (fun p q => (Adjacent s.g p q ∧ Adjacent s.g q p) ∧ S i p ∧ S i q) (branch i) x := by
      rintro x (rfl | ⟨p, p1, rfl, p3⟩)
      · exact .refl
      · exact chain_reach (path p) (branch p.1) (hlink p p1) (hin p p1) x (List.mem_cons_of_mem _ p3)
    have hback : Relation.ReflTransGen (fun p q => (Adjacent s.g p q ∧ Adjacent s.g q p) ∧ S i p ∧ S i q) a (branch i) := by
      have := hroot a ha
      rw [← Relation.reflTransGen_swap] at this
      exact Relation.ReflTransGen.mono (fun p q h => ⟨⟨h.1.2, h.1.1⟩, h.2.2, h.2.1⟩) _ _ this
    have hall := hback.trans (hroot b hb)
    clear hb hback
    induction hall with
    | refl => exact .here _
    | tail _ hs ih => exact .step ih hs.1.1 hs.2.2
  · intro p hp
    refine ⟨(branch p.1 :: path p).getLast (by simp), branch p.2, hin p hp _ (List.getLast_mem _), .inl rfl, ?_⟩
    refine (hst _ _ (List.mem_flatMap.2 ⟨p, hp, ?_⟩)).1
    rw [links_snoc]
    simp

/-- A minor without the class of the additional vertex. -/
theorem Minor.drop {B : Base} {m n : ℕ} {P : Fin n → Fin n → Prop} {Q : Fin m → Fin m → Prop} {S : Fin n → Nat → Prop} (h : Minor B.Adj P S)
    (f : Fin m → Fin n) (hf : Injective f) (hP : ∀ i j, Q i j → P (f i) (f j)) (h0 : ∀ i, ¬ S (f i) 0) :
    Minor (fun x y => ∃ d : B.D, B.own d.1 = x ∧ B.own (twin d.1) = y) Q fun i => S (f i) := by
  have hreal : ∀ {i j x y}, B.Adj x y → S (f i) x → S (f j) y → ∃ d : B.D, B.own d.1 = x ∧ B.own (twin d.1) = y := by
    intro i j x y k hx hy
    refine k.resolve_right ?_
    rintro ⟨_, ⟨rfl, _⟩ | ⟨rfl, _⟩⟩
    · exact h0 _ hx
    · exact h0 _ hy
  refine ⟨fun i j a k l => hf (h.disj _ _ a k l), ?_, ?_⟩
  · intro i a b ha hb
    refine Relation.ReflTransGen.mono ?_ _ _ (h.conn (f i) a b ha hb)
    rintro x y ⟨k1, k2, k3⟩
    exact ⟨hreal k1 k2 k3, k2, k3⟩
  · intro i j hij
    obtain ⟨a, b, h1, h2, h3⟩ := h.edge _ _ (hP i j hij)
    exact ⟨a, b, h1, h2, hreal h3 h1 h2⟩

theorem k5_drop (z : Fin 5) : ∃ f : Fin 4 → Fin 5, Injective f ∧ (∀ i j, adjK4 i j → adjK5 (f i) (f j)) ∧ ∀ i, f i ≠ z :=
  ⟨z.succAbove, Fin.succAbove_right_injective, fun i j h k => h (Fin.succAbove_right_injective k), fun i => Fin.succAbove_ne z i⟩

theorem k33_drop (z : Fin 6) : ∃ f : Fin 5 → Fin 6, Injective f ∧ (∀ i j, adjK23 i j → adjK33 (f i) (f j)) ∧ ∀ i, f i ≠ z := by
  fin_cases z
  · exact ⟨![1, 2, 3, 4, 5], by decide, by decide, by decide⟩
  · exact ⟨![0, 2, 3, 4, 5], by decide, by decide, by decide⟩
  · exact ⟨![0, 1, 3, 4, 5], by decide, by decide, by decide⟩
  · exact ⟨![4, 5, 0, 1, 2], by decide, by decide, by decide⟩
  · exact ⟨![3, 5, 0, 1, 2], by decide, by decide, by decide⟩
  · exact ⟨![3, 4, 0, 1, 2], by decide, by decide, by decide⟩

/-- At most one class has the additional vertex. -/
theorem Minor.home {n : ℕ} [NeZero n] {adj : Nat → Nat → Prop} {P : Fin n → Fin n → Prop} {S : Fin n → Nat → Prop} (h : Minor adj P S) (a : Nat) :
    ∃ z, ∀ i, i ≠ z → ¬ S i a := by
  by_cases hz : ∃ z, S z a
  · obtain ⟨z, hz⟩ := hz
    exact ⟨z, fun i hi k => hi (h.disj _ _ a k hz)⟩
  · exact ⟨0, fun i _ k => hz ⟨i, k⟩⟩

/-- The input graph has a minor that no outerplanar graph has. -/
theorem Sorted.bad_outer {s0 : PGraph} {rot : Nat → List Nat} {B : Base} {num inv : Nat → Nat} (S : Sorted s0 rot B num inv) (hI : PInv s0 rot)
    (h : B.Bad) : (∃ S, Minor (Adjacent s0.g) adjK4 S) ∨ ∃ S, Minor (Adjacent s0.g) adjK23 S := by
  have hinj : ∀ a b, (1 ≤ a ∧ a ≤ B.N) → (1 ≤ b ∧ b ≤ B.N) → inv a = inv b → a = b := by
    intro a b ha hb he
    rw [S.N] at ha hb
    rw [← (S.back a ha.1 ha.2).2.2, he, (S.back b hb.1 hb.2).2.2]
  rcases h with ⟨T, h⟩ | ⟨T, h⟩
  · obtain ⟨z, hz⟩ := Minor.home h 0
    obtain ⟨f, f1, f2, f3⟩ := k5_drop z
    exact .inl ⟨_, Minor.rename (V := fun a => 1 ≤ a ∧ a ≤ B.N) (Minor.drop h f f1 f2 fun i => hz _ (f3 i)) (fun a b k => (S.adj hI k).1) hinj
      fun a b k => (S.adj hI k).2⟩
  · obtain ⟨z, hz⟩ := Minor.home h 0
    obtain ⟨f, f1, f2, f3⟩ := k33_drop z
    exact .inr ⟨_, Minor.rename (V := fun a => 1 ≤ a ∧ a ≤ B.N) (Minor.drop h f f1 f2 fun i => hz _ (f3 i)) (fun a b k => (S.adj hI k).1) hinj
      fun a b k => (S.adj hI k).2⟩

end Verif.Embed
