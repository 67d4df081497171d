import Verif.Draw.Store
import Verif.Spec.Drawing
import Verif.Props.Text

/-
Property C54: drawing data written with a graph and read back.
-/
namespace Verif.Props
open Verif Verif.Graph Verif.Draw Verif.Text

/-- C54, in part: a simple undirected graph with drawing data, written as an adjacency list and read back from the string. The
rotation order is the same, every vertex has its own data again, and every edge has if both graphs keep the edges in the
same records. Missing (false of the code): the same for edges kept in other records. -/
theorem drawing_stored_partial {g : Graph} (h1 : 1 ≤ g.N) (hN : g.N < 2147483648) (hE : g.eSize ≤ 2147483648) (hr : Reach g)
    (hs : IsSimple g) (hu : Undirected g) {c : Ctx} (hc : Ints c) :
    ∃ text, writeBoth c g = some text ∧ ∀ fuel, g.N ≤ fuel → ∃ g' c', readBoth fuel text = some (some (g', c')) ∧
      g'.N = g.N ∧ g'.M = g.M ∧ (∀ w, IsVertex g w → neighbors g' w = neighbors g w) ∧ SameVertexData g c c' ∧
      ((∀ u e w, ArcTo g u e w → ArcTo g' u e w) → SameEdgeData g c g' c') := by
  have hl := SimpleLists.lists (simpleLists_of hr hs)
  obtain ⟨rot, hI⟩ := hr.inv
  have hp : ∀ e u, e ∈ rot u → 1 ≤ u := fun e u he => (hI.links.vert u e he).1
  have hw := writeDrawing_eq (c := c) hI
  generalize htl : openTag ++ 10 :: ((List.range' 1 g.N).flatMap (vtext c g) ++ ((used g).flatMap (etext c g) ++ (closeTag ++ [10]))) = tail at hw
  have ht : tail.dropWhile SB.isSpace = tail := by rw [← htl]; rfl
  have h0 : 0 ∉ tail := by
    rw [← htl]
    simp only [List.mem_append, List.mem_cons, List.mem_flatMap, not_or, not_exists, not_and]
    exact ⟨by decide, by decide, fun v _ => line_noNul _ _ _ _, fun e _ => line_noNul _ _ _ _, by decide, by decide, by simp⟩
  refine ⟨adjText (outOf g) (zeroBased g) g.N ++ tail, ?_, ?_⟩
  · unfold writeBoth
    rw [writeAdjList_eq hl, hw]
    rfl
  intro fuel hf
  obtain ⟨b, s, rot', hread, hb, hrep, hN', hfl⟩ := readAdjList_tail ht string_faithful h1 hl.proper hN hf (z := zeroBased g)
    (strBuf_ahead (s := adjText (outOf g) (zeroBased g) g.N ++ tail) (by
      rw [List.mem_append, not_or]; exact ⟨adjText_noNul _ _ _, h0⟩))
  obtain ⟨hM, hnb, -⟩ := read_library hr hs hu hb hN'
  have hI' := hb.saved.inv
  obtain ⟨c', d1, d2, d3⟩ := readDrawing_spec (c0 := {}) hI hp hI' hc hN hE hN' hM hb.saved.holes hw
  refine ⟨s.g, c', ?_, hN', hM, hnb, d2, ?_⟩
  · unfold readBoth
    rw [hread]
    simp only [Option.bind_eq_bind, Option.bind_some]
    rw [hrep.read, Option.bind_some, d1]
    rfl
  · intro hsame u e e' w he he'
    have hee : e' = e := by
      have h2 := hsame u e w he
      refine hb.saved.uniq u e' e (.inl (hI'.arcAt.1 he'.1)) (.inl (hI'.arcAt.1 h2.1)) ?_
      have h3 := he'.2
      have h4 := h2.2
      rw [getNbr_eq (hI'.links.arc u e' (hI'.arcAt.1 he'.1)).2] at h3
      rw [getNbr_eq (hI'.links.arc u e (hI'.arcAt.1 h2.1)).2] at h4
      rw [Option.some.inj h3, Option.some.inj h4]
    subst hee
    have hlen := used_length hI hp
    have hus : used g = List.range' 2 (2 * g.M) := by
      have hsub : ∀ x ∈ used g, x ∈ List.range' 2 (2 * g.M) := by
        intro x hx
        have hx2 : (g.E x).nbr ≠ 0 := by
          have := (List.mem_filter.1 hx).2
          simpa using this
        have hlive : ∃ v, x ∈ rot v := by
          by_contra hcn
          exact hx2 (by rw [hI.zero x fun v hv => hcn ⟨v, hv⟩])
        obtain ⟨v, hv⟩ := hlive
        have h5 := hsame v x (g.E x).nbr ⟨hI.arcAt.2 hv, getNbr_eq (hI.links.arc v x hv).2⟩
        have h6 := hb.saved.below v x (.inl (hI'.arcAt.1 h5.1))
        rw [List.mem_range'_1]
        omega
      have hn : (used g).Nodup := (List.nodup_range' (s := 2) (n := 2 * (g.M + g.holes.length)) (step := 1)).filter _
      have hperm : (used g).Perm (List.range' 2 (2 * g.M)) :=
        (List.subperm_of_subset hn hsub).perm_of_length_le (by rw [List.length_range', hlen])
      have s1 : (used g).Pairwise (· < ·) := (List.pairwise_lt_range' (s := 2) (n := 2 * (g.M + g.holes.length)) (step := 1)).filter _
      exact hperm.eq_of_pairwise (fun a b _ _ h1 h2 => by omega) s1 (List.pairwise_lt_range' (s := 2) (n := 2 * g.M) (step := 1))
    have h6 := hb.saved.below u e' (.inl (hI'.arcAt.1 he'.1))
    have h7 := d3 (e' - 2) (by rw [hlen]; omega)
    have h8 : (used g)[e' - 2]'(by rw [hlen]; omega) = e' := by
      rw [List.getElem_of_eq hus, List.getElem_range']
      omega
    rw [h8, show 2 + (e' - 2) = e' by omega] at h7
    exact h7

/-- The path 1, 2, 3; the edge {2, 3} is the first that was added. -/
def elbow : Graph := ((exec (Graph.init 3 18) [.add 2 0 3 0, .add 1 0 2 0]).map Prod.fst).getD (Graph.init 0 0)
theorem elbow_reach : Reach elbow := runOk (by decide) rfl (by decide +kernel)
theorem elbow_simple : IsSimple elbow := isSimpleB_sound (by decide +kernel)
theorem elbow_undirected : Undirected elbow := undirected_of elbow_reach (by decide +kernel)

/-- A drawing of it. -/
def elbowDrawing : Ctx where
  VI v := if v = 1 then { pos := 0, start := 1, stop := 1 } else if v = 2 then { pos := 1, start := 0, stop := 1 } else { pos := 2, start := 0, stop := 0 }
  E e := if e < 4 then { pos := 0, start := 1, stop := 2 } else { pos := 1, start := 0, stop := 1 }

theorem elbowDrawing_ints : Ints elbowDrawing := by
  constructor
  · intro v; unfold elbowDrawing IsInt; simp only; split
    · decide
    · split <;> decide
  · intro e; unfold elbowDrawing IsInt; simp only; split <;> decide

/-- C54 is false of the code: the data of the edges are exchanged, so that they no longer fit the edges. -/
theorem drawing_stored_false : ¬ ∀ (g : Graph) (c : Ctx), 1 ≤ g.N → Reach g → IsSimple g → Undirected g → Ints c →
    (check c g).map Prod.snd = some .ok → ∀ text, writeBoth c g = some text → ∀ fuel, g.N ≤ fuel → ∀ g' c',
    readBoth fuel text = some (some (g', c')) → SameEdgeData g c g' c' := by
  intro hall
  have hd : ((writeBoth elbowDrawing elbow).bind fun text => (readBoth 3 text).bind fun r => r.map fun r =>
      decide (r.2.E 3 ≠ elbowDrawing.E 5 ∧ arcAtB r.1 1 3 = true ∧ r.1.getNbr 3 = some 2)) = some true := by decide +kernel
  rw [Option.bind_eq_some_iff] at hd
  obtain ⟨text, hw, hd⟩ := hd
  rw [Option.bind_eq_some_iff] at hd
  obtain ⟨r, hr, hd⟩ := hd
  rw [Option.map_eq_some_iff] at hd
  obtain ⟨⟨g', c'⟩, rfl, hd⟩ := hd
  obtain ⟨e1, e2, e3⟩ := of_decide_eq_true hd
  exact e1 (hall elbow elbowDrawing (by decide +kernel) elbow_reach elbow_simple elbow_undirected elbowDrawing_ints (by decide +kernel) text hw 3
    (by decide +kernel) g' c' hr 1 5 3 2 ⟨arcAtB_sound (by decide +kernel), by decide +kernel⟩ ⟨arcAtB_sound e2, e3⟩)

/-- Hypotheses of `drawing_stored_partial`, with edges in the same records: the two edges added the other way round. -/
example : 1 ≤ elbow.N ∧ elbow.N < 2147483648 ∧ elbow.eSize ≤ 2147483648 ∧ Reach elbow ∧ IsSimple elbow ∧ Undirected elbow ∧ Ints elbowDrawing :=
  ⟨by decide +kernel, by decide +kernel, by decide +kernel, elbow_reach, elbow_simple, elbow_undirected, elbowDrawing_ints⟩
example : ((writeBoth elbowDrawing starThree).bind fun text => (readBoth 3 text).bind fun r => r.map fun r =>
    decide (r.2.E 2 = elbowDrawing.E 2 ∧ r.2.E 4 = elbowDrawing.E 4 ∧ r.1.getNbr 2 = starThree.getNbr 2 ∧ r.1.getNbr 4 = starThree.getNbr 4)) =
    some true := by decide +kernel

end Verif.Props
