import Verif.Embed.Sound
import Verif.Test.Certificates
import Verif.Spec.Minor

/-
A blocked embedder and plane embeddings.
-/
namespace Verif.Embed
open Verif Verif.Graph Verif.EGraph Verif.DFS Equiv Equiv.Perm Verif.Map Function Verif.Props Verif.Test

/-- Minors under an injective renaming of the vertices. -/
theorem Minor.rename {n : ℕ} {adj adj' : Nat → Nat → Prop} {P : Fin n → Fin n → Prop} {S : Fin n → Nat → Prop} {f : Nat → Nat} {V : Nat → Prop}
    (h : Minor adj P S) (hV : ∀ a b, adj a b → V a ∧ V b) (hinj : ∀ a b, V a → V b → f a = f b → a = b)
    (hadj : ∀ a b, adj a b → adj' (f a) (f b)) : Minor adj' P fun i y => ∃ x, V x ∧ S i x ∧ f x = y := by
  refine ⟨?_, ?_, ?_⟩
  · rintro i j a ⟨x, x1, x2, x3⟩ ⟨y, y1, y2, y3⟩
    have := hinj x y x1 y1 (x3.trans y3.symm)
    subst this
    exact h.disj i j x x2 y2
  · rintro i a b ⟨x, x1, x2, rfl⟩ ⟨y, y1, y2, rfl⟩
    have hp := h.conn i x y x2 y2
    clear y1 y2
    induction hp with
    | refl => exact .refl
    | tail _ hs ih =>
      obtain ⟨s1, s2, s3⟩ := hs
      have := hV _ _ s1
      exact ih.tail ⟨hadj _ _ s1, ⟨_, this.1, s2, rfl⟩, ⟨_, this.2, s3, rfl⟩⟩
  · intro i j hij
    obtain ⟨a, b, h1, h2, h3⟩ := h.edge i j hij
    have := hV _ _ h3
    exact ⟨f a, f b, ⟨a, this.1, h1, rfl⟩, ⟨b, this.2, h2, rfl⟩, hadj _ _ h3⟩

/-- The adjacencies of the sorted graph are those of the input graph. -/
theorem Sorted.adj {s0 : PGraph} {rot : Nat → List Nat} {B : Base} {num inv : Nat → Nat} (S : Sorted s0 rot B num inv) (hI : PInv s0 rot)
    {x y : Nat} (h : ∃ d : B.D, B.own d.1 = x ∧ B.own (twin d.1) = y) : ((1 ≤ x ∧ x ≤ B.N) ∧ 1 ≤ y ∧ y ≤ B.N) ∧ Adjacent s0.g (inv x) (inv y) := by
  obtain ⟨d, h1, h2⟩ := h
  obtain ⟨u, hu⟩ := (S.A d.1).1 d.2
  have ht := hI.inv.twins u _ hu
  have hup := hI.prim _ _ hu
  have hwp := hI.prim _ _ ht
  have e1 : B.own d.1 = num u := by
    unfold Base.own
    rw [S.nbr _ _ ht]
    show num (s0.g.E (twin d.1)).nbr = _
    rw [hI.inv.owner u _ hu]
  have e2 : B.own (twin d.1) = num (s0.g.E d.1).nbr := by
    unfold Base.own
    rw [twin_twin, S.nbr _ _ hu]; rfl
  rw [← h1, ← h2, e1, e2, S.N]
  obtain ⟨a1, a2, a3⟩ := S.out _ hup.1 hup.2
  obtain ⟨b1, b2, b3⟩ := S.out _ hwp.1 hwp.2
  refine ⟨⟨⟨a1, a2⟩, b1, b2⟩, ?_⟩
  rw [a3, b3]
  exact (adjacent_arc hI.inv).2 ⟨d.1, (arcTo_iff hI.inv).2 ⟨hu, rfl⟩⟩

/-- Without the additional vertex there are only the edges of the graph. -/
theorem adj_no {B : Base} (hap : B.ap = false) {x y : Nat} (h : B.Adj x y) : ∃ d : B.D, B.own d.1 = x ∧ B.own (twin d.1) = y :=
  h.resolve_right fun k => by rw [hap] at k; exact absurd k.1 (by decide)

/-- The input graph has a minor that no plane graph has. -/
theorem Sorted.bad {s0 : PGraph} {rot : Nat → List Nat} {B : Base} {num inv : Nat → Nat} (S : Sorted s0 rot B num inv) (hI : PInv s0 rot)
    (hap : B.ap = false) (h : B.Bad) : (∃ S, Minor (Adjacent s0.g) adjK5 S) ∨ ∃ S, Minor (Adjacent s0.g) adjK33 S := by
  have hinj : ∀ a b, (1 ≤ a ∧ a ≤ B.N) → (1 ≤ b ∧ b ≤ B.N) → inv a = inv b → a = b := by
    intro a b ha hb he
    rw [S.N] at ha hb
    rw [← (S.back a ha.1 ha.2).2.2, he, (S.back b hb.1 hb.2).2.2]
  rcases h with ⟨T, h⟩ | ⟨T, h⟩
  · exact .inl ⟨_, Minor.rename (V := fun a => 1 ≤ a ∧ a ≤ B.N) h (fun a b k => (S.adj hI (adj_no hap k)).1) hinj fun a b k => (S.adj hI (adj_no hap k)).2⟩
  · exact .inr ⟨_, Minor.rename (V := fun a => 1 ≤ a ∧ a ≤ B.N) h (fun a b k => (S.adj hI (adj_no hap k)).1) hinj fun a b k => (S.adj hI (adj_no hap k)).2⟩

/-- No graph that contains a graph with such a minor has a plane embedding. -/
theorem no_plane_minor {o s : PGraph} {rot rot'} (ho : PInv o rot) (hs : PInv s rot') {π : Nat → Nat} (hπ : Renaming o s π)
    (hp : PlaneEmbedding s) (h : (∃ S, Minor (Adjacent o.g) adjK5 S) ∨ ∃ S, Minor (Adjacent o.g) adjK33 S) : False := by
  have hfin := dart_finite hs.inv.weak
  have hadj : ∀ a b, Adjacent o.g a b → ∃ d : Dart rot', own s.g d = π a ∧ own s.g (al hs.inv.weak d) = π b := by
    intro a b hab
    obtain ⟨e, he⟩ := (adjacent_arc hs.inv).1 (hπ.adj _ _ hab)
    obtain ⟨h1, h2⟩ := (arcTo_iff hs.inv).1 he
    exact ⟨⟨e, _, h1⟩, own_of hs.inv.weak h1, by rw [own_al]; exact h2⟩
  have hV : ∀ a b, Adjacent o.g a b → (1 ≤ a ∧ a ≤ o.g.N) ∧ 1 ≤ b ∧ b ≤ o.g.N := fun a b k => adjacent_range ho k
  have hinj : ∀ a b, (1 ≤ a ∧ a ≤ o.g.N) → (1 ≤ b ∧ b ≤ o.g.N) → π a = π b → a = b :=
    fun a b ha hb he => hπ.inj a b ha.1 ha.2 hb.1 hb.2 he
  have hv : ∀ d d' : Dart rot', SameCycle (sg hs.inv.weak) d d' ↔ own s.g d = own s.g d' := fun d d' => same_sg hs.inv.weak
  rcases h with ⟨T, h⟩ | ⟨T, h⟩
  · exact Minor.false (S6 := fun _ _ => False) (al_al hs.inv.weak) (al_ne hs.inv.weak) (plane_flat hs hp) hv
      (.inl (Minor.rename (V := fun a => 1 ≤ a ∧ a ≤ o.g.N) h hV hinj hadj))
  · exact Minor.false (S5 := fun _ _ => False) (al_al hs.inv.weak) (al_ne hs.inv.weak) (plane_flat hs hp) hv
      (.inr (Minor.rename (V := fun a => 1 ≤ a ∧ a ≤ o.g.N) h hV hinj hadj))

/-- The same minors as in the statements of properties. -/
theorem hasMinor_of {g : Graph} {n : ℕ} {P : Fin n → Fin n → Prop} {T : Fin n → Nat → Prop} {E : List (Nat × Nat)} (h : Minor (Adjacent g) P T)
    (hV : ∀ a b, Adjacent g a b → (1 ≤ a ∧ a ≤ g.N) ∧ 1 ≤ b ∧ b ≤ g.N) (hE : ∀ p ∈ E, ∃ (h1 : p.1 < n) (h2 : p.2 < n), P ⟨p.1, h1⟩ ⟨p.2, h2⟩)
    (hne : ∀ i : Fin n, ∃ j, P i j) : HasMinor g n E := by
  refine ⟨fun i a => ∃ hi : i < n, T ⟨i, hi⟩ a, ?_, ?_, ?_, ?_, ?_⟩
  · intro i hi
    obtain ⟨j, hj⟩ := hne ⟨i, hi⟩
    obtain ⟨a, b, h1, _⟩ := h.edge _ _ hj
    exact ⟨a, hi, h1⟩
  · rintro i j a hi hj ⟨_, h1⟩ ⟨_, h2⟩
    have := h.disj _ _ a h1 h2
    simpa using this
  · rintro i a hi ⟨_, h1⟩
    obtain ⟨j, hj⟩ := hne ⟨i, hi⟩
    obtain ⟨b, c, h2, _, h3⟩ := h.edge _ _ hj
    have hp := h.conn _ b a h2 h1
    rcases Relation.ReflTransGen.cases_tail hp with he | ⟨d, _, hd, _⟩
    · rw [he]; exact (hV _ _ h3).1
    · exact (hV _ _ hd).2
  · rintro i a b hi ⟨_, h1⟩ ⟨_, h2⟩
    have hp := h.conn _ a b h1 h2
    clear h2
    induction hp with
    | refl => exact .here _
    | tail _ hs ih => exact .step ih hs.1 ⟨hi, hs.2.2⟩
  · intro p hp
    obtain ⟨h1, h2, h3⟩ := hE p hp
    obtain ⟨a, b, k1, k2, k3⟩ := h.edge _ _ h3
    exact ⟨a, b, ⟨h1, k1⟩, ⟨h2, k2⟩, k3⟩

end Verif.Embed
