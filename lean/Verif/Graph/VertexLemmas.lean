import Verif.Graph.Vertex
import Verif.Graph.Store

/-
Helper lemmas for hiding and restoring vertices.
-/
namespace Verif
open Function
namespace Graph

/-- The same graph with another work stack. -/
def withStack (g : Graph) (s : List Nat) : Graph := { g with stack := s }

@[simp] theorem withStack_withStack (g : Graph) (s t) : (g.withStack s).withStack t = g.withStack t := rfl
theorem withStack_self (g : Graph) : g.withStack g.stack = g := rfl
theorem wrE_withStack (g : Graph) (s e r) : (g.withStack s).wrE e r = (g.wrE e r).map (·.withStack s) := by
  unfold wrE; by_cases h : e < g.eSize
  · rw [if_pos h, if_pos (show e < (g.withStack s).eSize from h)]; rfl
  · rw [if_neg h, if_neg (show ¬ e < (g.withStack s).eSize from h)]; rfl
theorem wrV_withStack (g : Graph) (s e r) : (g.withStack s).wrV e r = (g.wrV e r).map (·.withStack s) := by
  unfold wrV; by_cases h : e < g.vSize
  · rw [if_pos h, if_pos (show e < (g.withStack s).vSize from h)]; rfl
  · rw [if_neg h, if_neg (show ¬ e < (g.withStack s).vSize from h)]; rfl
theorem getAdj_withStack (g : Graph) (s e b) : (g.withStack s).getAdj e b = g.getAdj e b := rfl
theorem getNbr_withStack (g : Graph) (s e) : (g.withStack s).getNbr e = g.getNbr e := rfl
theorem rdE_withStack (g : Graph) (s e) : (g.withStack s).rdE e = g.rdE e := rfl
theorem rdV_withStack (g : Graph) (s e) : (g.withStack s).rdV e = g.rdV e := rfl
theorem setAdj_withStack (g : Graph) (s e b x) :
    (g.withStack s).setAdj e b x = (g.setAdj e b x).map (·.withStack s) := by
  unfold setAdj; rw [rdE_withStack]
  rcases g.rdE e with _ | r
  · rfl
  · exact wrE_withStack ..
theorem setArc_withStack (g : Graph) (s e b x) :
    (g.withStack s).setArc e b x = (g.setArc e b x).map (·.withStack s) := by
  unfold setArc; rw [rdV_withStack]
  rcases g.rdV e with _ | r
  · rfl
  · exact wrV_withStack ..

theorem fixEnd_withStack (g : Graph) (s) (n a : Nat) (b : Bool) (w x : Nat) :
    (if n ≠ 0 then (g.withStack s).setAdj n b x
      else do (g.withStack s).setArc (← (g.withStack s).getNbr (twin a)) w.bodd x : Option Graph) =
    (if n ≠ 0 then g.setAdj n b x else do g.setArc (← g.getNbr (twin a)) w.bodd x : Option Graph).map
      (·.withStack s) := by
  split
  · exact setAdj_withStack ..
  · rw [getNbr_withStack]
    rcases g.getNbr (twin a) with _ | v
    · rfl
    · exact setArc_withStack ..

theorem restoreArc_withStack (g : Graph) (s a) :
    (g.withStack s).restoreArc a = (g.restoreArc a).map (·.withStack s) := by
  unfold restoreArc
  simp only [getAdj_withStack, Option.bind_eq_bind]
  rcases g.getAdj a false with _ | n
  · rfl
  rcases g.getAdj a true with _ | p
  · rfl
  simp only [Option.bind_some]
  have h2 : ∀ g1 : Graph, _ := fun g1 => fixEnd_withStack g1 s p a false 0 a
  simp only [Option.bind_eq_bind, show (0 : Nat).bodd = false from rfl] at h2
  split
  · rw [setAdj_withStack]
    rcases g.setAdj n true a with _ | g1
    · rfl
    · exact h2 g1
  · rw [getNbr_withStack]
    rcases g.getNbr (twin a) with _ | v
    · rfl
    simp only [Option.bind_some]
    rw [setArc_withStack]
    rcases g.setArc v true a with _ | g1
    · rfl
    · exact h2 g1

theorem restoreEdge_withStack (g : Graph) (s e) :
    (g.withStack s).restoreEdge e = (g.restoreEdge e).map (·.withStack s) := by
  unfold restoreEdge
  simp only [Option.bind_eq_bind, restoreArc_withStack]
  rcases g.restoreArc (twin e) with _ | g1
  · rfl
  · simp only [Option.map_some, Option.bind_some, restoreArc_withStack]

/-- The part of the invariant that survives hiding. -/
structure WInv (g : Graph) (rot : Nat → List Nat) : Prop where
  links : Links g rot
  owner : ∀ v e, e ∈ rot v → (g.E (twin e)).nbr = v
  twins : ∀ v e, e ∈ rot v → twin e ∈ rot (g.E e).nbr

theorem Inv.weak {g rot} (h : Inv g rot) : WInv g rot := ⟨h.links, h.owner, h.twins⟩

theorem WInv.withStack {g rot} (h : WInv g rot) (s) : WInv (g.withStack s) rot :=
  ⟨h.links.congr (g' := g.withStack s) rfl rfl (fun _ _ => rfl) (fun _ _ => rfl), h.owner, h.twins⟩

theorem WInv.hide {g rot} (h : WInv g rot) {v e : Nat} (he : e ∈ rot v) :
    ∃ g', g.hideEdge e = some g' ∧ WInv g' (removeRot e rot) ∧ SameBut g g' ∧
      g'.restoreEdge e = some g ∧ g'.E e = g.E e := by
  obtain ⟨g', hg', hL, hs, _, hr, hx⟩ := hideEdge_spec h.links h.owner he (h.twins v e he)
  refine ⟨g', hg', ⟨hL, ?_, ?_⟩, hs, hr, hx⟩
  · intro w a ha; rw [hs.nbr]; exact h.owner w a (mem_removeRot.1 ha).1
  · intro w a ha
    rw [mem_removeRot] at ha
    rw [hs.nbr, mem_removeRot]
    refine ⟨h.twins w a ha.1, fun hh => ha.2.2 ?_, fun hh => ha.2.1 (twin_inj hh)⟩
    rw [← hh, twin_twin]

theorem push_eq {g : Graph} (h : g.stack.length < g.stackCap) (x) :
    g.push x = some (g.withStack (x :: g.stack)) := by
  simp [push, h, Graph.withStack]

/-- Lists after hiding the edges of all arcs in `K`. -/
def removeAll (K : List Nat) (rot : Nat → List Nat) : Nat → List Nat :=
  fun w => (rot w).filter fun a => a / 2 ∉ K.map (· / 2)

theorem removeAll_cons (e : Nat) (K : List Nat) (rot : Nat → List Nat) :
    removeAll K (removeRot e rot) = removeAll (e :: K) rot := by
  funext w
  unfold removeRot removeAll
  rw [List.filter_filter]
  congr 1
  funext a
  have : (a / 2 = e / 2) ↔ (a = e ∨ a = twin e) :=
    ⟨div_eq_cases, by rintro (rfl | rfl); rfl; exact twin_div e⟩
  simp only [List.map_cons, List.mem_cons, not_or, this, Bool.decide_and]
  rw [Bool.and_comm]

theorem hideVertexLoop_spec {v : Nat} : ∀ (K : List Nat) (fuel : Nat) {g : Graph} {rot : Nat → List Nat},
    WInv g rot → rot v = K → (∀ e ∈ K, twin e ∉ K) → K.length ≤ fuel →
    g.stack.length + K.length ≤ g.stackCap →
    ∃ g', hideVertexLoop fuel g (K.headD 0) = some g' ∧ WInv g' (removeAll K rot) ∧
      g'.stack = K.reverse ++ g.stack ∧ g'.stackCap = g.stackCap ∧ g'.N = g.N ∧
      g'.arcCap = g.arcCap ∧
      ∀ s n bottom, bottom ≤ s.length →
        restoreHidden (K.length + n) (g'.withStack (K.reverse ++ s)) bottom =
          restoreHidden n (g.withStack s) bottom := by
  intro K
  induction K with
  | nil =>
    intro fuel g rot h hK _ _ _
    refine ⟨g, ?_, ?_, rfl, rfl, rfl, rfl, ?_⟩
    · cases fuel <;> simp [hideVertexLoop]
    · have : removeAll [] rot = rot := by funext w; simp [removeAll]
      rw [this]; exact h
    · intro s n bottom _; simp
  | cons e K ih =>
    intro fuel g rot h hK htw hf hcap
    have he : e ∈ rot v := by rw [hK]; simp
    have hnd := h.links.nodup v
    rw [hK, List.nodup_cons] at hnd
    have har := h.links.arc _ _ he
    obtain ⟨fuel, rfl⟩ : ∃ f, fuel = f + 1 := ⟨fuel - 1, by simp at hf; omega⟩
    have hlen : g.stack.length < g.stackCap := by simp at hcap; omega
    have h1 := h.withStack (e :: g.stack)
    obtain ⟨g2, hg2, h2, hs2, hr2, hx2⟩ := h1.hide he
    have hrv : removeRot e rot v = K := by
      unfold removeRot
      rw [hK, List.filter_cons_of_neg (by simp)]
      rw [List.filter_eq_self]
      intro a ha
      simp only [decide_eq_true_eq]
      refine ⟨fun hh => hnd.1 (hh ▸ ha), fun hh => ?_⟩
      exact htw e (by simp) (by rw [← hh]; simp [ha])
    have hnext : g2.getAdj e false = some (K.headD 0) := by
      have : e < g2.eSize := by rw [hs2.eSize]; exact har.2
      simp only [getAdj, rdE, this, if_true, Option.bind_eq_bind, Option.bind_some]
      rw [hx2]
      have := h.links.elink v false e he
      rw [hK, dir_false, nextIn_cons_self] at this
      show some ((g.E e).link false) = _
      rw [this]
    obtain ⟨g3, hg3, h3, hst3, hcap3, hN3, hA3, hrest⟩ := ih fuel h2 hrv
      (fun a ha hh => htw a (by simp [ha]) (by simp [hh])) (by simp at hf; omega)
      (by rw [hs2.stack, hs2.stackCap]; simp only [Graph.withStack, List.length_cons] at hcap ⊢; omega)
    refine ⟨g3, ?_, ?_, ?_, ?_, ?_, ?_, ?_⟩
    · rw [hideVertexLoop, List.headD_cons, if_neg (by omega), push_eq hlen]
      simp only [Option.bind_eq_bind, Option.bind_some, hg2, hnext, hg3]
    · rw [← removeAll_cons]; exact h3
    · rw [hst3, hs2.stack]; simp [Graph.withStack]
    · rw [hcap3, hs2.stackCap]; rfl
    · rw [hN3, hs2.N]; rfl
    · rw [hA3, hs2.arcCap]; rfl
    · intro s n bottom hb
      have := hrest (e :: s) (n + 1) bottom (by simp; omega)
      rw [List.reverse_cons, List.append_assoc, List.singleton_append, List.length_cons,
        show K.length + 1 + n = K.length + (n + 1) by omega, this, restoreHidden]
      rw [if_pos (by simp [Graph.withStack]; omega)]
      have hp : (g2.withStack (e :: s)).pop = some (e, g2.withStack s) := rfl
      rw [hp]
      simp only [Option.bind_eq_bind, Option.bind_some]
      rw [if_neg (by omega)]
      rw [restoreEdge_withStack, hr2]
      rfl

end Graph
end Verif

namespace Verif
open Function
namespace Graph

theorem WInv.mem_pair {g rot} (h : WInv g rot) {v w e : Nat} (he : e ∈ rot w) :
    e / 2 ∈ (rot v).map (· / 2) ↔ w = v ∨ (g.E e).nbr = v := by
  simp only [List.mem_map]
  constructor
  · rintro ⟨a, ha, hd⟩
    rcases div_eq_cases hd with rfl | rfl
    · exact .inl (h.links.disj _ _ _ he ha)
    · exact .inr (h.owner v _ ha ▸ by rw [twin_twin])
  · rintro (rfl | hn)
    · exact ⟨e, he, rfl⟩
    · exact ⟨twin e, hn ▸ h.twins w e he, twin_div e⟩

theorem WInv.removeAll_eq {g rot} (h : WInv g rot) (v w : Nat) :
    removeAll (rot v) rot w = if w = v then [] else (rot w).filter fun e => (g.E e).nbr ≠ v := by
  unfold removeAll
  split
  · next hw =>
    subst hw
    rw [List.filter_eq_nil_iff]
    intro a ha
    simpa using ⟨a, ha, rfl⟩
  · next hw =>
    apply List.filter_congr
    intro e he
    have := h.mem_pair (v := v) he
    simp only [hw, false_or] at this
    exact decide_eq_decide.2 (not_congr this)

theorem hideVertexLoop_same {v : Nat} : ∀ (K : List Nat) (fuel : Nat) {g g' : Graph} {rot : Nat → List Nat},
    WInv g rot → rot v = K → (∀ e ∈ K, twin e ∉ K) → hideVertexLoop fuel g (K.headD 0) = some g' →
    (∀ e, (g'.E e).nbr = (g.E e).nbr) := by
  intro K
  induction K with
  | nil =>
    intro fuel g g' rot _ _ _ hs
    cases fuel <;> simp [hideVertexLoop] at hs <;> subst hs <;> intro <;> rfl
  | cons e K ih =>
    intro fuel g g' rot h hK htw hs
    have he : e ∈ rot v := by rw [hK]; simp
    have hnd := h.links.nodup v
    rw [hK, List.nodup_cons] at hnd
    have har := h.links.arc _ _ he
    cases fuel with
    | zero => simp [hideVertexLoop] at hs; omega
    | succ fuel =>
      rw [hideVertexLoop, List.headD_cons, if_neg (by omega)] at hs
      by_cases hlen : g.stack.length < g.stackCap
      · rw [push_eq hlen] at hs
        have h1 := h.withStack (e :: g.stack)
        obtain ⟨g2, hg2, h2, hs2, hr2, hx2⟩ := h1.hide he
        have hrv : removeRot e rot v = K := by
          unfold removeRot
          rw [hK, List.filter_cons_of_neg (by simp)]
          rw [List.filter_eq_self]
          intro a ha
          simp only [decide_eq_true_eq]
          refine ⟨fun hh => hnd.1 (hh ▸ ha), fun hh => ?_⟩
          exact htw e (by simp) (by rw [← hh]; simp [ha])
        have hnext : g2.getAdj e false = some (K.headD 0) := by
          have : e < g2.eSize := by rw [hs2.eSize]; exact har.2
          simp only [getAdj, rdE, this, if_true, Option.bind_eq_bind, Option.bind_some]
          rw [hx2]
          have := h.links.elink v false e he
          rw [hK, dir_false, nextIn_cons_self] at this
          show some ((g.E e).link false) = _
          rw [this]
        simp only [Option.bind_eq_bind, Option.bind_some, hg2, hnext] at hs
        intro a
        rw [ih fuel h2 hrv (fun a ha hh => htw a (by simp [ha]) (by simp [hh])) hs a, hs2.nbr]
        rfl
      · simp [push, hlen] at hs

theorem hideVertex_spec {g rot} (h : WInv g rot) {v : Nat} (hv : 1 ≤ v ∧ v < g.vSize)
    (hloop : ∀ e ∈ rot v, (g.E e).nbr ≠ v)
    (hroom : g.stack.length + (rot v).length + 7 ≤ g.stackCap) :
    ∃ g', g.hideVertex v = some (g', .ok) ∧ WInv g' (removeAll (rot v) rot) ∧
      g'.stack.length = g.stack.length + (rot v).length + 7 ∧ g'.stackCap = g.stackCap ∧
      g'.N = g.N ∧ (∀ e, (g'.E e).nbr = (g.E e).nbr) ∧ g'.restoreVertex = some (g, .ok) := by
  have htw : ∀ e ∈ rot v, twin e ∉ rot v := by
    intro e he ht
    have := h.owner v _ ht
    rw [twin_twin] at this
    exact hloop e he this
  obtain ⟨g1, hg1, h1, hst, hcap, hN, hA, hrest⟩ := hideVertexLoop_spec (rot v) g.eSize h rfl htw
    (nodup_length_le (h.links.nodup v) (fun x hx => (h.links.arc v x hx).2)) (by omega)
  have hnbr := hideVertexLoop_same (rot v) g.eSize h rfl htw hg1
  have hfirst : g.getArc v false = some ((rot v).headD 0) := by
    simp only [getArc, rdV, hv.2, if_true, Option.bind_eq_bind, Option.bind_some]
    rw [h.links.vlink v false hv.2]; rfl
  have hl1 : g1.stack.length = (rot v).length + g.stack.length := by rw [hst]; simp
  refine ⟨g1.withStack (v :: 0 :: 0 :: 0 :: 0 :: 0 :: g.stack.length :: g1.stack), ?_, ?_, ?_, hcap,
    hN, hnbr, ?_⟩
  · unfold hideVertex
    rw [if_neg (by omega), hfirst]
    simp only [Option.bind_eq_bind, Option.bind_some, hg1]
    have push' : ∀ (s : List Nat) (x : Nat), s.length < g.stackCap →
        (g1.withStack s).push x = some (g1.withStack (x :: s)) := by
      intro s x hs
      rw [push_eq (by simpa [Graph.withStack, hcap] using hs)]; rfl
    rw [← withStack_self g1]
    simp only [withStack_withStack]
    rw [push' _ _ (by omega), Option.bind_some, push' _ _ (by simp; omega), Option.bind_some,
      push' _ _ (by simp; omega), Option.bind_some, push' _ _ (by simp; omega), Option.bind_some,
      push' _ _ (by simp; omega), Option.bind_some, push' _ _ (by simp; omega), Option.bind_some,
      push' _ _ (by simp; omega), Option.bind_some]
    rfl
  · exact h1.withStack _
  · show _ = _
    simp only [Graph.withStack, List.length_cons, hl1]; omega
  · unfold restoreVertex
    rw [if_neg (by simp [Graph.withStack])]
    simp only [pop, Graph.withStack, Option.bind_eq_bind, Option.bind_some]
    rw [if_neg (by simp)]
    have := hrest g.stack g.stack.length g.stack.length (le_refl _)
    rw [← hst] at this
    rw [show g1.stack.length = (rot v).length + g.stack.length from hl1]
    refine this.trans ?_
    cases hh : g.stack.length <;> simp [restoreHidden, Graph.withStack, hh]

end Graph
end Verif
