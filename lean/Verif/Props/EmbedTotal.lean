import Verif.Props.EmbedComplete

/-
gp_Embed always has an outcome: C73; C23 in part.
-/
namespace Verif.Props
open Verif Verif.Graph Verif.DFS Verif.Embed Verif.EGraph Verif.Map Verif.Test Function

/-- C73: for planar and outerplanar embedding, gp_Embed comes to an end without undefined behaviour, and never reports
NOTOK. -/
theorem embed_outcome {s : PGraph} (hr : PReach s) (hf : s.g.dfsNumbered = false) (hs : IsSimple s.g) (outer : Bool) :
    ∃ t r, (ofP s).embed outer = some (t, r) ∧ (r = .ok ∨ r = .blocked) := by
  obtain ⟨t, r, h, hn⟩ := embed_total hr hf hs outer
  refine ⟨t, r, h, ?_⟩
  cases r
  · exact .inl rfl
  · exact absurd rfl hn
  · exact .inr rfl

/-- C73: gp_Embed decides planarity. -/
theorem embed_decides {s : PGraph} (hr : PReach s) (hf : s.g.dfsNumbered = false) (hs : IsSimple s.g) :
    (IsPlanar s ↔ ∃ t, (ofP s).embed false = some (t, .ok)) ∧ (¬ IsPlanar s ↔ ∃ t, (ofP s).embed false = some (t, .blocked)) := by
  obtain ⟨t, r, h, hn⟩ := embed_outcome hr hf hs false
  obtain ⟨v1, v2⟩ := embed_verdict hr hf hs h
  have hu : ∀ {t' r'}, (ofP s).embed false = some (t', r') → r' = r := by
    intro t' r' h'
    rw [h] at h'
    cases h'
    rfl
  rcases hn with rfl | rfl
  · refine ⟨⟨fun _ => ⟨t, h⟩, fun _ => v1 rfl⟩, fun hh => absurd (v1 rfl) hh, ?_⟩
    rintro ⟨t', h'⟩
    cases hu h'
  · refine ⟨⟨fun hh => absurd hh (v2 rfl), ?_⟩, fun _ => ⟨t, h⟩, fun _ => v2 rfl⟩
    rintro ⟨t', h'⟩
    cases hu h'

/-- C23, another part that holds: gp_Embed starts with a defined outcome, and OK, on every simple graph the API can
produce that was not numbered. Missing: numbered graphs, see `embed_start_false`, and graphs with parallel edges or loops. -/
theorem embed_start_simple_partial {s : PGraph} (hr : PReach s) (hf : s.g.dfsNumbered = false) (hs : IsSimple s.g) :
    ∃ t, (ofP s).embeddingInitialize = some (t, .ok) := by
  obtain ⟨t, h, _⟩ := init_ready hr hf (simple_of hs) false
  exact ⟨t, h⟩

theorem minor_of {s : PGraph} {rot : Nat → List Nat} (hI : PInv s rot) {n : Nat} {E : List (Nat × Nat)} {P : Fin n → Fin n → Prop}
    (hE : ∀ i j : Fin n, P i j → (i.1, j.1) ∈ E ∨ (j.1, i.1) ∈ E) (h : HasMinor s.g n E) : ∃ S, Minor (Adjacent s.g) P S := by
  obtain ⟨S, h1, h2, h3, h4, h5⟩ := h
  have hsym : ∀ a b, Adjacent s.g a b → Adjacent s.g b a := by
    intro a b hab
    obtain ⟨e, he⟩ := (adjacent_arc hI.inv).1 hab
    obtain ⟨k1, k2⟩ := (arcTo_iff hI.inv).1 he
    refine (adjacent_arc hI.inv).2 ⟨twin e, (arcTo_iff hI.inv).2 ⟨?_, ?_⟩⟩
    · have := hI.inv.twins a e k1
      rwa [k2] at this
    · exact hI.inv.owner a e k1
  refine ⟨fun i a => S i.1 a, fun i j a hi hj => Fin.ext (h2 _ _ a i.2 j.2 hi hj), ?_, ?_⟩
  · intro i a b ha hb
    have hw := h4 _ a b i.2 ha hb
    have key : S i.1 b ∧ Relation.ReflTransGen (fun x y => Adjacent s.g x y ∧ S i.1 x ∧ S i.1 y) a b := by
      clear hb
      induction hw with
      | here => exact ⟨ha, .refl⟩
      | step _ hab hc ih => exact ⟨hc, ih.2.tail ⟨hab, ih.1, hc⟩⟩
    exact key.2
  · intro i j hij
    rcases hE i j hij with hh | hh
    · exact h5 _ hh
    · obtain ⟨a, b, k1, k2, k3⟩ := h5 _ hh
      exact ⟨b, a, k2, k1, hsym _ _ k3⟩

/-- C73: gp_Embed reports OK exactly if the graph has neither K5 nor K3,3 as a minor. -/
theorem embed_ok_iff_minor {s : PGraph} (hr : PReach s) (hf : s.g.dfsNumbered = false) (hs : IsSimple s.g) :
    (∃ t, (ofP s).embed false = some (t, .ok)) ↔ ¬ HasMinor s.g 5 edgesK5 ∧ ¬ HasMinor s.g 6 edgesK33 := by
  constructor
  · intro hok
    obtain ⟨p, ⟨rot', hP⟩, hN, _, ha, hp⟩ := (embed_decides hr hf hs).1.2 hok
    obtain ⟨rot, hI⟩ := consistent_of_reach hr
    obtain ⟨π, hπ⟩ := renaming_of hI hP hN.symm (subAdj_both.2 ha).2
    refine ⟨fun hm => ?_, fun hm => ?_⟩
    · exact no_plane_minor hI hP hπ hp (.inl (minor_of hI (by decide) hm))
    · exact no_plane_minor hI hP hπ hp (.inr (minor_of hI (by decide) hm))
  · rintro ⟨h5, h6⟩
    obtain ⟨t, r, h, hn⟩ := embed_outcome hr hf hs false
    rcases hn with rfl | rfl
    · exact ⟨t, h⟩
    · rcases embed_blocked_minor hr hf hs h with hh | hh
      · exact absurd hh h5
      · exact absurd hh h6

/-- Hypotheses of C73, with each of the two outcomes. -/
example : (PReach four ∧ four.g.dfsNumbered = false ∧ ((ofP four).embed false).map (·.2) = some .ok) ∧
    PReach sixVertices ∧ sixVertices.g.dfsNumbered = false ∧ ((ofP sixVertices).embed false).map (·.2) = some .blocked :=
  ⟨⟨four_reach, by decide +kernel, by decide +kernel⟩, sixVertices_reach, by decide +kernel, by decide +kernel⟩

end Verif.Props
