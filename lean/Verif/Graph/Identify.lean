import Verif.Graph.VertexLemmas
import Verif.Graph.Sim

/-
Helper lemmas for identifying vertices.
-/
namespace Verif
open Function
namespace Graph

/-- The same graph with the flags of each vertex `w` changed by `F w`. -/
def relabel (g : Graph) (F : Nat → Nat → Nat) : Graph :=
  { g with V := fun w => { g.V w with flags := F w (g.V w).flags } }

theorem relabel_withStack (g : Graph) (F s) : (g.relabel F).withStack s = (g.withStack s).relabel F := rfl
theorem relabel_relabel (g : Graph) (F G) :
    (g.relabel F).relabel G = g.relabel (fun w f => G w (F w f)) := rfl
theorem relabel_id (g : Graph) (F) (h : ∀ w, F w (g.V w).flags = (g.V w).flags) : g.relabel F = g := by
  unfold relabel
  congr 1
  funext w
  rw [h]

theorem wrE_relabel (g : Graph) (F e r) : (g.relabel F).wrE e r = (g.wrE e r).map (·.relabel F) := by
  unfold wrE; by_cases h : e < g.eSize
  · rw [if_pos h, if_pos (show e < (g.relabel F).eSize from h)]; rfl
  · rw [if_neg h, if_neg (show ¬ e < (g.relabel F).eSize from h)]; rfl
theorem getAdj_relabel (g : Graph) (F e b) : (g.relabel F).getAdj e b = g.getAdj e b := rfl
theorem getNbr_relabel (g : Graph) (F e) : (g.relabel F).getNbr e = g.getNbr e := rfl
theorem rdE_relabel (g : Graph) (F e) : (g.relabel F).rdE e = g.rdE e := rfl
theorem setAdj_relabel (g : Graph) (F e b x) :
    (g.relabel F).setAdj e b x = (g.setAdj e b x).map (·.relabel F) := by
  unfold setAdj; rw [rdE_relabel]
  rcases g.rdE e with _ | r
  · rfl
  · exact wrE_relabel ..
theorem setArc_relabel (g : Graph) (F v b x) :
    (g.relabel F).setArc v b x = (g.setArc v b x).map (·.relabel F) := by
  unfold setArc rdV
  by_cases h : v < g.vSize
  · rw [if_pos h, if_pos (show v < (g.relabel F).vSize from h)]
    simp only [Option.bind_eq_bind, Option.bind_some, wrV]
    rw [if_pos h, if_pos (show v < (g.relabel F).vSize from h)]
    simp only [Option.map_some, Option.some.injEq]
    unfold relabel
    simp only
    congr 1
    funext w
    by_cases hw : w = v
    · subst hw; rw [update_self, update_self]; cases b <;> rfl
    · rw [update_of_ne hw, update_of_ne hw]
  · rw [if_neg h, if_neg (show ¬ v < (g.relabel F).vSize from h)]; rfl

theorem restoreArc_relabel (g : Graph) (F a) :
    (g.relabel F).restoreArc a = (g.restoreArc a).map (·.relabel F) := by
  unfold restoreArc
  simp only [getAdj_relabel, Option.bind_eq_bind]
  rcases g.getAdj a false with _ | n
  · rfl
  rcases g.getAdj a true with _ | p
  · rfl
  simp only [Option.bind_some]
  have h2 : ∀ g1 : Graph, (if p ≠ 0 then (g1.relabel F).setAdj p false a
      else ((g1.relabel F).getNbr (twin a)).bind fun w => (g1.relabel F).setArc w false a) =
      (if p ≠ 0 then g1.setAdj p false a else (g1.getNbr (twin a)).bind fun w => g1.setArc w false a).map
        (·.relabel F) := by
    intro g1
    split
    · exact setAdj_relabel ..
    · rw [getNbr_relabel]
      rcases g1.getNbr (twin a) with _ | v
      · rfl
      · exact setArc_relabel ..
  split
  · rw [setAdj_relabel]
    rcases g.setAdj n true a with _ | g1
    · rfl
    · exact h2 g1
  · rw [getNbr_relabel]
    rcases g.getNbr (twin a) with _ | v
    · rfl
    simp only [Option.bind_some]
    rw [setArc_relabel]
    rcases g.setArc v true a with _ | g1
    · rfl
    · exact h2 g1

theorem restoreEdge_relabel (g : Graph) (F e) :
    (g.relabel F).restoreEdge e = (g.restoreEdge e).map (·.relabel F) := by
  unfold restoreEdge
  simp only [Option.bind_eq_bind, restoreArc_relabel]
  rcases g.restoreArc (twin e) with _ | g1
  · rfl
  · simp only [Option.map_some, Option.bind_some, restoreArc_relabel]

theorem Links.relabel {g rot} (h : Links g rot) (F) : Links (g.relabel F) rot :=
  h.congr (g' := g.relabel F) rfl rfl (fun _ _ => rfl) (fun _ b => by cases b <;> rfl)

theorem WInv.relabel {g rot} (h : WInv g rot) (F) : WInv (g.relabel F) rot :=
  ⟨h.links.relabel F, h.owner, h.twins⟩

theorem or_one (f : Nat) : f ||| 1 = f / 2 * 2 + 1 := by
  have h1 : (f ||| 1) / 2 = f / 2 := by rw [Nat.or_div_two]; simp
  have h2 : (f ||| 1) % 2 = 1 := by
    rw [Nat.or_mod_two_eq_one]; simp
  omega

theorem setVisited_eq {g : Graph} {n : Nat} (h : n < g.vSize) :
    g.setVisited n = some (g.relabel fun w f => if w = n then f / 2 * 2 + 1 else f) := by
  simp only [setVisited, rdV, h, if_true, Option.bind_eq_bind, Option.bind_some, wrV,
    Option.some.injEq]
  unfold Graph.relabel
  congr 1
  funext w
  by_cases hw : w = n
  · subst hw; rw [update_self]; simp [or_one]
  · rw [update_of_ne hw]; simp [hw]

theorem clearVisited_eq {g : Graph} {n : Nat} (h : n < g.vSize) :
    g.clearVisited n = some (g.relabel fun w f => if w = n then f / 2 * 2 else f) := by
  simp only [clearVisited, rdV, h, if_true, Option.bind_eq_bind, Option.bind_some, wrV,
    Option.some.injEq]
  unfold Graph.relabel
  congr 1
  funext w
  by_cases hw : w = n
  · subst hw; rw [update_self]; simp
  · rw [update_of_ne hw]; simp [hw]

/-- Flag changes made by marking / unmarking the vertices in `S`. -/
def markF (S : List Nat) (w f : Nat) : Nat := if w ∈ S then f / 2 * 2 + 1 else f
def unmarkF (S : List Nat) (w f : Nat) : Nat := if w ∈ S then f / 2 * 2 else f

theorem nbr_lt {g rot} (h : WInv g rot) {w e : Nat} (he : e ∈ rot w) : (g.E e).nbr < g.vSize :=
  (h.links.vert _ _ (h.twins w e he)).2

/-- The next arc of an element of a represented list. -/
theorem next_eq {g rot} (h : Links g rot) {v e : Nat} {A K : List Nat} (hr : rot v = A ++ e :: K) :
    g.getAdj e false = some (K.headD 0) := by
  have he : e ∈ rot v := by rw [hr]; simp
  have hlt := (h.arc _ _ he).2
  have hnd := h.nodup v
  rw [hr] at hnd
  have hA : e ∉ A := fun hh => (List.nodup_append.1 hnd).2.2 e hh e (by simp) rfl
  simp only [getAdj, rdE, hlt, if_true, Option.bind_eq_bind, Option.bind_some]
  rw [h.elink v false e he, hr, dir_false, nextIn_append_right hA, nextIn_cons_self]
  rfl

theorem markLoop_spec {rot : Nat → List Nat} {u : Nat} : ∀ (K A : List Nat) (fuel : Nat) {g : Graph},
    WInv g rot → rot u = A ++ K → K.length ≤ fuel → (K.map fun e => (g.E e).nbr).Nodup →
    (∀ e ∈ K, (g.V (g.E e).nbr).flags % 2 = 0) →
    markLoop fuel g (K.headD 0) = some (g.relabel (markF (K.map fun e => (g.E e).nbr)), .ok) := by
  intro K
  induction K with
  | nil =>
    intro A fuel g h _ _ _ _
    have : g.relabel (markF []) = g := relabel_id _ _ (by simp [markF])
    rw [List.map_nil, this]
    cases fuel <;> simp [markLoop]
  | cons e K ih =>
    intro A fuel g h hr hf hnd hz
    obtain ⟨fuel, rfl⟩ : ∃ f, fuel = f + 1 := ⟨fuel - 1, by simp at hf; omega⟩
    have he : e ∈ rot u := by rw [hr]; simp
    have har := h.links.arc _ _ he
    have hn := nbr_lt h he
    have hv : g.getVisited (g.E e).nbr = some false := by
      simp [getVisited, rdV, hn, hz e (by simp)]
    rw [List.map_cons, List.nodup_cons] at hnd
    rw [markLoop, List.headD_cons, if_neg (by omega), getNbr_eq har.2]
    simp only [Option.bind_eq_bind, Option.bind_some, hv, setVisited_eq hn]
    rw [if_neg (by simp), getAdj_relabel, next_eq h.links hr, Option.bind_some]
    rw [ih (A ++ [e]) fuel (h.relabel _) (by simp [hr]) (by simp at hf; omega) hnd.2 ?_]
    · rw [relabel_relabel]
      congr 3
      funext w f
      simp only [markF, List.map_cons, List.mem_cons]
      show (if w ∈ K.map (fun e => (g.E e).nbr) then _ else _) = _
      by_cases h1 : w = (g.E e).nbr
      · have : w ∉ K.map fun e => (g.E e).nbr := h1 ▸ hnd.1
        rw [if_neg this, if_pos h1, if_pos (.inl h1)]
      · simp only [h1, if_false, false_or]
    · intro a ha
      have hne : (g.E a).nbr ≠ (g.E e).nbr := fun hh =>
        hnd.1 (hh ▸ List.mem_map_of_mem (f := fun e => (g.E e).nbr) ha)
      show (if (g.E a).nbr = (g.E e).nbr then _ else _) % 2 = 0
      rw [if_neg hne]
      exact hz a (by simp [ha])

theorem unmarkLoop_spec {rot : Nat → List Nat} {u : Nat} : ∀ (K A : List Nat) (fuel : Nat) {g : Graph},
    WInv g rot → rot u = A ++ K → K.length ≤ fuel →
    unmarkLoop fuel g (K.headD 0) = some (g.relabel (unmarkF (K.map fun e => (g.E e).nbr))) := by
  intro K
  induction K with
  | nil =>
    intro A fuel g h _ _
    have : g.relabel (unmarkF []) = g := relabel_id _ _ (by simp [unmarkF])
    rw [List.map_nil, this]
    cases fuel <;> simp [unmarkLoop]
  | cons e K ih =>
    intro A fuel g h hr hf
    obtain ⟨fuel, rfl⟩ : ∃ f, fuel = f + 1 := ⟨fuel - 1, by simp at hf; omega⟩
    have he : e ∈ rot u := by rw [hr]; simp
    have har := h.links.arc _ _ he
    have hn := nbr_lt h he
    rw [unmarkLoop, List.headD_cons, if_neg (by omega), getNbr_eq har.2]
    simp only [Option.bind_eq_bind, Option.bind_some, clearVisited_eq hn]
    rw [getAdj_relabel, next_eq h.links hr, Option.bind_some]
    rw [ih (A ++ [e]) fuel (h.relabel _) (by simp [hr]) (by simp at hf; omega)]
    · rw [relabel_relabel]
      congr 2
      funext w f
      simp only [unmarkF, List.map_cons, List.mem_cons]
      show (if w ∈ K.map (fun e => (g.E e).nbr) then _ else _) = _
      by_cases h1 : w = (g.E e).nbr
      · simp only [h1, if_true, true_or]
        split <;> omega
      · simp only [h1, if_false, false_or]

theorem hideMarkedLoop_spec {v : Nat} : ∀ (K A : List Nat) (fuel : Nat) {g : Graph}
    {rot : Nat → List Nat} (m : Nat → Bool),
    WInv g rot → rot v = A ++ K → (∀ e ∈ rot v, twin e ∉ rot v) → K.length ≤ fuel →
    (∀ e ∈ K, m e = decide ((g.V (g.E e).nbr).flags % 2 = 1)) →
    g.stack.length + (K.filter m).length ≤ g.stackCap →
    ∃ g', hideMarkedLoop fuel g (K.headD 0) = some g' ∧ WInv g' (removeAll (K.filter m) rot) ∧
      SameBut (g.withStack ((K.filter m).reverse ++ g.stack)) g' ∧
      ∀ F s n bottom, bottom ≤ s.length →
        restoreHidden ((K.filter m).length + n)
          ((g'.relabel F).withStack ((K.filter m).reverse ++ s)) bottom =
          restoreHidden n ((g.relabel F).withStack s) bottom := by
  intro K
  induction K with
  | nil =>
    intro A fuel g rot m h hK _ _ _ _
    refine ⟨g, ?_, ?_, SameBut.refl _, ?_⟩
    · cases fuel <;> simp [hideMarkedLoop]
    · have : removeAll [] rot = rot := by funext w; simp [removeAll]
      rw [List.filter_nil, this]; exact h
    · intro F s n bottom _; simp
  | cons e K ih =>
    intro A fuel g rot m h hK htw hf hm hcap
    have he : e ∈ rot v := by rw [hK]; simp
    have har := h.links.arc _ _ he
    have hn := nbr_lt h he
    obtain ⟨fuel, rfl⟩ : ∃ f, fuel = f + 1 := ⟨fuel - 1, by simp at hf; omega⟩
    have hvis : g.getVisited (g.E e).nbr = some (m e) := by
      rw [hm e (by simp)]
      simp [getVisited, rdV, hn]
    by_cases hme : m e = true
    · rw [List.filter_cons_of_pos hme] at hcap ⊢
      have hlen : g.stack.length < g.stackCap := by simp at hcap; omega
      have h1 := h.withStack (e :: g.stack)
      obtain ⟨g2, hg2, h2, hs2, hr2, hx2⟩ := h1.hide he
      have hnd := h.links.nodup v
      rw [hK] at hnd
      have hrv : removeRot e rot v = A ++ K := by
        unfold removeRot
        have hf1 : ∀ L : List Nat, (∀ a ∈ L, a ∈ rot v) → e ∉ L →
            L.filter (fun a => a ≠ e ∧ a ≠ twin e) = L := by
          intro L hL he'
          rw [List.filter_eq_self]
          intro a ha
          simp only [decide_eq_true_eq]
          exact ⟨fun hh => he' (hh ▸ ha), fun hh => htw e he (hh ▸ hL a ha)⟩
        rw [hK, List.filter_append, List.filter_cons_of_neg (by simp),
          hf1 A (fun a ha => by rw [hK]; simp [ha])
            (fun hh => (List.nodup_append.1 hnd).2.2 e hh e (by simp) rfl),
          hf1 K (fun a ha => by rw [hK]; simp [ha])
            (List.nodup_cons.1 (List.nodup_append.1 hnd).2.1).1]
      have hnext : g2.getAdj e false = some (K.headD 0) := by
        have hlt : e < g2.eSize := by rw [hs2.eSize]; exact har.2
        have := next_eq h.links hK
        simp only [getAdj, rdE, hlt, har.2, if_true, Option.bind_eq_bind, Option.bind_some, hx2] at this ⊢
        exact this
      have hsub : ∀ a, a ∈ removeRot e rot v → a ∈ rot v := fun a ha => (mem_removeRot.1 ha).1
      obtain ⟨g3, hg3, h3, hs3, hrest⟩ := ih A fuel m h2 hrv
        (fun a ha hh => htw a (hsub a ha) (hsub _ hh)) (by simp at hf; omega)
        (by
          intro a ha
          rw [hm a (by simp [ha]), hs2.nbr, hs2.vflags]; rfl)
        (by rw [hs2.stack, hs2.stackCap]; simp only [Graph.withStack, List.length_cons] at hcap ⊢; omega)
      refine ⟨g3, ?_, ?_, ?_, ?_⟩
      · rw [hideMarkedLoop, List.headD_cons, if_neg (by omega), getNbr_eq har.2]
        simp only [Option.bind_eq_bind, Option.bind_some, hvis, hme, if_true, push_eq hlen, hg2,
          hnext, hg3]
      · rw [← removeAll_cons]; exact h3
      · have hst : g2.stack = e :: g.stack := hs2.stack
        rw [hst] at hs3
        constructor
        · rw [hs3.N]; exact hs2.N
        · rw [hs3.M]; exact hs2.M
        · rw [hs3.arcCap]; exact hs2.arcCap
        · rw [hs3.holes]; exact hs2.holes
        · rw [hs3.holesCap]; exact hs2.holesCap
        · rw [hs3.stack]; simp [Graph.withStack]
        · rw [hs3.stackCap]; exact hs2.stackCap
        · rw [hs3.flags]; exact hs2.flags
        · intro a; rw [hs3.nbr]; exact hs2.nbr a
        · intro a; rw [hs3.eflags]; exact hs2.eflags a
        · intro a; rw [hs3.index]; exact hs2.index a
        · intro a; rw [hs3.vflags]; exact hs2.vflags a
      · intro F s n bottom hb
        have := hrest F (e :: s) (n + 1) bottom (by simp; omega)
        rw [List.reverse_cons, List.append_assoc, List.singleton_append, List.length_cons,
          show (K.filter m).length + 1 + n = (K.filter m).length + (n + 1) by omega, this, restoreHidden]
        rw [if_pos (by simp [Graph.withStack]; omega)]
        have hp : ((g2.relabel F).withStack (e :: s)).pop = some (e, (g2.relabel F).withStack s) := rfl
        rw [hp]
        simp only [Option.bind_eq_bind, Option.bind_some]
        rw [if_neg (by omega)]
        rw [restoreEdge_withStack, restoreEdge_relabel, hr2]
        rfl
    · rw [List.filter_cons_of_neg hme] at hcap ⊢
      rw [Bool.not_eq_true] at hme
      obtain ⟨g3, hg3, h3, hs3, hrest⟩ := ih (A ++ [e]) fuel m h (by simp [hK]) htw
        (by simp at hf; omega) (fun a ha => hm a (by simp [ha])) hcap
      refine ⟨g3, ?_, h3, hs3, hrest⟩
      rw [hideMarkedLoop, List.headD_cons, if_neg (by omega), getNbr_eq har.2]
      simp only [Option.bind_eq_bind, Option.bind_some, hvis, hme]
      rw [if_neg (by simp), next_eq h.links hK, Option.bind_some, hg3]

end Graph
end Verif
