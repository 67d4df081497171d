import Verif.Draw.Model
import Verif.Test.ThetaSub

/-
Model of `gp_TestEmbedResultIntegrity` for graphs with extensions: the overloads of fpCheckEmbeddingIntegrity and
fpCheckObstructionIntegrity by the searches for K2,3, K3,3 and K4 and by the drawing extension.

The chain of overloads is the list of the attached extensions, the one attached last first; that calls go along this
chain is `overload_chains` (C48). An overload finds its own context (it is called because its extension is attached), so
that the NOTOK at the end of each overload is not reached and not modelled.
-/
namespace Verif
namespace Test
open Graph

/-- The extensions that overload the tests of results. The drawing extension has a context. -/
inductive Feature
  | k23 | k33 | k4
  | draw (c : Draw.Ctx)

/-- The end of `_K23Search_CheckObstructionIntegrity`, graphK23Search_Extensions.c 224-232. -/
def onlyK23 (g : Graph) : Option (Graph × Res) := do
  match ← imageVertices g 3 5 with
  | none => return (g, .notok)
  | some (degrees, verts) => do
    let (g, ok) ← testK23 g degrees verts
    return (g, if ok then .ok else .notok)

/-- The end of `_K33Search_CheckObstructionIntegrity`, graphK33Search_Extensions.c 725-735. -/
def onlyK33 (g : Graph) : Option (Graph × Res) := do
  match ← imageVertices g 4 6 with
  | none => return (g, .notok)
  | some (degrees, verts) => do
    let (g, ok) ← testK33 g degrees verts
    return (g, if ok then .ok else .notok)

/-- The end of `_K4Search_CheckObstructionIntegrity`, graphK4Search_Extensions.c 471-479. -/
def onlyK4 (g : Graph) : Option (Graph × Res) := do
  match ← imageVertices g 3 4 with
  | none => return (g, .notok)
  | some (degrees, verts) => do
    let (g, ok) ← testComplete g 4 degrees verts
    return (g, if ok then .ok else .notok)

/-- The test for a subgraph before each of them: graphK23Search_Extensions.c 221-222, graphK33Search_Extensions.c 720-723,
graphK4Search_Extensions.c 468-469. -/
def partAnd (test : Graph → Option (Graph × Res)) (s orig : PGraph) : Option (PGraph × PGraph × Res) := do
  let (s, orig, ok) ← testSubgraph s orig
  if !ok then return (s, orig, .notok)
  else do
    let (g, r) ← test s.g
    return (s.setG g, orig, r)

/-- fpCheckObstructionIntegrity: graphK23Search_Extensions.c 213-248 (EMBEDFLAGS_SEARCHFORK23 is 18, graph.h 86),
graphK33Search_Extensions.c 712-751 (EMBEDFLAGS_SEARCHFORK33 is 65, graph.h 88), graphK4Search_Extensions.c 460-495
(EMBEDFLAGS_SEARCHFORK4 is 34, graph.h 87), graphDrawPlanar_Extensions.c 545-548. -/
def obstructionWith : List Feature → Nat → PGraph → PGraph → Option (PGraph × PGraph × Res)
  | [], flags, s, orig => checkObstruction flags s orig
  | .k23 :: fs, flags, s, orig => if flags = 18 then partAnd onlyK23 s orig else obstructionWith fs flags s orig
  | .k33 :: fs, flags, s, orig => if flags = 65 then partAnd onlyK33 s orig else obstructionWith fs flags s orig
  | .k4 :: fs, flags, s, orig => if flags = 34 then partAnd onlyK4 s orig else obstructionWith fs flags s orig
  | .draw _ :: _, _, s, orig => some (s, orig, .ok)

/-- fpCheckEmbeddingIntegrity: graphK23Search_Extensions.c 188-208, graphK33Search_Extensions.c 687-707,
graphK4Search_Extensions.c 435-455, graphDrawPlanar_Extensions.c 526-540. -/
def embeddingWith : List Feature → Nat → PGraph → PGraph → Option (PGraph × PGraph × Res)
  | [], flags, s, orig => checkEmbedding flags s orig
  | .k23 :: fs, flags, s, orig => if flags = 18 then some (s, orig, .ok) else embeddingWith fs flags s orig
  | .k33 :: fs, flags, s, orig => if flags = 65 then some (s, orig, .ok) else embeddingWith fs flags s orig
  | .k4 :: fs, flags, s, orig => if flags = 34 then some (s, orig, .ok) else embeddingWith fs flags s orig
  | .draw c :: fs, flags, s, orig => do
    let (s, orig, r) ← embeddingWith fs flags s orig
    if r ≠ .ok then return (s, orig, .notok)
    else do
      let (g, r) ← Draw.check c s.g
      return (s.setG g, orig, r)

/-- `gp_TestEmbedResultIntegrity`, graphTests.c 76-96, for a graph with extensions; `flags` is the embedFlags of the
result graph. The original graph needs none: only the tables of the result graph are used. -/
def testResultWith (fs : List Feature) (flags : Nat) (s orig : PGraph) (embedResult : Res) :
    Option (PGraph × PGraph × Res) :=
  match embedResult with
  | .notok => some (s, orig, .notok)
  | .ok => embeddingWith fs flags s orig
  | .nonembeddable => do
    let (s, orig, r) ← obstructionWith fs flags s orig
    return (s, orig, if r = .ok then .nonembeddable else r)

section
variable {g : Graph} {rot : Nat → List Nat} (h : Inv g rot) (hprim : ∀ u e, e ∈ rot u → 1 ≤ u ∧ u ≤ g.N)
include h hprim

theorem onlyK33_spec {F : Nat → Nat → Nat} (hF : ∀ w f, F w f / 2 = f / 2) :
    ∃ F' r, onlyK33 (g.relabel F) = some (g.relabel F', r) ∧ (∀ w f, F' w f / 2 = f / 2) ∧ (r = .ok ∨ r = .notok) ∧
      (r = .ok ↔ Props.IsSubdivision g 6 Props.edgesK33) := by
  have hN : (g.relabel F).N = g.N := rfl
  unfold onlyK33
  obtain ⟨s1, s2⟩ := imageVertices_spec (h.weak.relabel F) 4 6
  rw [hN] at s1 s2
  by_cases hok : DegOk rot 4 6 (List.range' 1 g.N)
  · rw [s1 hok]
    simp only [Option.bind_eq_bind, Option.bind_some]
    obtain ⟨F2, ok, e2, g1, g2⟩ := k33_exact h hprim hok hF
    rw [e2]
    refine ⟨F2, _, rfl, g1, ?_, ?_⟩
    · cases ok
      · exact .inr rfl
      · exact .inl rfl
    · rw [← g2]
      cases ok <;> simp
  · rw [s2 hok]
    exact ⟨F, .notok, rfl, hF, .inr rfl, fun hc => (by cases hc), fun hs => absurd (degOk_k33 h hs) hok⟩

theorem onlyK4_spec {F : Nat → Nat → Nat} (hF : ∀ w f, F w f / 2 = f / 2) :
    ∃ F' r, onlyK4 (g.relabel F) = some (g.relabel F', r) ∧ (∀ w f, F' w f / 2 = f / 2) ∧ (r = .ok ∨ r = .notok) ∧
      (r = .ok ↔ Props.IsSubdivision g 4 Props.edgesK4) := by
  have hN : (g.relabel F).N = g.N := rfl
  unfold onlyK4
  obtain ⟨s1, s2⟩ := imageVertices_spec (h.weak.relabel F) 3 4
  rw [hN] at s1 s2
  by_cases hok : DegOk rot 3 4 (List.range' 1 g.N)
  · rw [s1 hok]
    simp only [Option.bind_eq_bind, Option.bind_some]
    obtain ⟨F2, ok, e2, g1, g2⟩ := complete_exact h (n := 4) (M := 4) (D := 3) (by omega) (by omega) (by omega) complete4
      hprim hok hF
    rw [e2]
    refine ⟨F2, _, rfl, g1, ?_, ?_⟩
    · cases ok
      · exact .inr rfl
      · exact .inl rfl
    · rw [← g2]
      cases ok <;> simp
  · rw [s2 hok]
    exact ⟨F, .notok, rfl, hF, .inr rfl, fun hc => (by cases hc), fun hs =>
      absurd (degOk_complete h (by omega) complete4 (by omega) (by omega) hs) hok⟩

theorem onlyK23_spec {F : Nat → Nat → Nat} (hF : ∀ w f, F w f / 2 = f / 2) :
    ∃ F' r, onlyK23 (g.relabel F) = some (g.relabel F', r) ∧ (∀ w f, F' w f / 2 = f / 2) ∧ (r = .ok ∨ r = .notok) ∧
      (r = .ok → LoopFree g rot → Props.IsSubdivision g 5 Props.edgesK23) ∧
      (Props.IsSubdivision g 5 Props.edgesK23 → r = .ok) := by
  have hN : (g.relabel F).N = g.N := rfl
  unfold onlyK23
  obtain ⟨s1, s2⟩ := imageVertices_spec (h.weak.relabel F) 3 5
  rw [hN] at s1 s2
  by_cases hok : DegOk rot 3 5 (List.range' 1 g.N)
  · rw [s1 hok]
    simp only [Option.bind_eq_bind, Option.bind_some]
    obtain ⟨F2, ok, e2, g1, g2, g3⟩ := k23_exact h hprim hok hF
    rw [e2]
    refine ⟨F2, _, rfl, g1, ?_, ?_, ?_⟩
    · cases ok
      · exact .inr rfl
      · exact .inl rfl
    · intro hk hl
      refine g2 ?_ hl
      cases ok
      · simp at hk
      · rfl
    · intro hs
      rw [g3 hs]; rfl
  · rw [s2 hok]
    exact ⟨F, .notok, rfl, hF, .inr rfl, fun hc => (by cases hc), fun hs => absurd (degOk_k23 h hs).1 hok⟩

end
end Test
end Verif
