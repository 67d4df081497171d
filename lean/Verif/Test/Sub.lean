import Verif.Test.Model
import Verif.Graph.Identify
import Verif.DFS.Refine

/-
Helper lemmas: what the loops of the subgraph test compute.
-/
namespace Verif
namespace Test
open Graph

/-- The heads of the arcs in a list. -/
def heads (g : Graph) (K : List Nat) : List Nat := K.map fun e => (g.E e).nbr

theorem Inv.weak {g rot} (h : Inv g rot) : WInv g rot := ⟨h.links, h.owner, h.twins⟩

theorem nbr_pos {g rot} (h : WInv g rot) {w e : Nat} (he : e ∈ rot w) : 1 ≤ (g.E e).nbr :=
  (h.links.vert _ _ (h.twins w e he)).1

theorem markLoop_spec {h : Graph} {rot : Nat → List Nat} {u : Nat} (hh : WInv h rot) :
    ∀ (K A : List Nat) (fuel d : Nat) (g : Graph), rot u = A ++ K → K.length ≤ fuel → g.vSize = h.vSize →
      markLoop h fuel (K.headD 0) d g = some (g.relabel (markF (heads h K)), d + K.length, true) := by
  intro K
  induction K with
  | nil =>
    intro A fuel d g _ _ _
    have : g.relabel (markF []) = g := relabel_id _ _ (by simp [markF])
    rw [heads, List.map_nil, this]
    cases fuel <;> simp [markLoop]
  | cons e K ih =>
    intro A fuel d g hr hf hs
    obtain ⟨fuel, rfl⟩ : ∃ f, fuel = f + 1 := ⟨fuel - 1, by simp at hf; omega⟩
    have he : e ∈ rot u := by rw [hr]; simp
    have har := hh.links.arc _ _ he
    have hn := nbr_lt hh he
    have hp := nbr_pos hh he
    rw [markLoop, List.headD_cons, if_neg (by omega), getNbr_eq har.2]
    simp only [Option.bind_eq_bind, Option.bind_some]
    rw [if_neg (by omega), setVisited_eq (by omega), Option.bind_some, next_eq hh.links hr, Option.bind_some]
    rw [ih (A ++ [e]) fuel (d + 1) (g.relabel _) (by simp [hr]) (by simp at hf; omega) hs]
    rw [relabel_relabel]
    congr 2
    · congr 1
      funext w f
      simp only [markF, heads, List.map_cons, List.mem_cons]
      by_cases h1 : w = (h.E e).nbr
      · simp only [h1, if_true, true_or]
        split <;> omega
      · simp only [h1, if_false, false_or]
    · rw [List.length_cons]; congr 1; omega

theorem unmarkLoop_spec {rot : Nat → List Nat} {u : Nat} : ∀ (K A : List Nat) (fuel : Nat) {g : Graph},
    WInv g rot → rot u = A ++ K → K.length ≤ fuel →
    unmarkLoop fuel (K.headD 0) g = some (g.relabel (unmarkF (heads g K)), true) := by
  intro K
  induction K with
  | nil =>
    intro A fuel g h _ _
    have : g.relabel (unmarkF []) = g := relabel_id _ _ (by simp [unmarkF])
    rw [heads, List.map_nil, this]
    cases fuel <;> simp [unmarkLoop]
  | cons e K ih =>
    intro A fuel g h hr hf
    obtain ⟨fuel, rfl⟩ : ∃ f, fuel = f + 1 := ⟨fuel - 1, by simp at hf; omega⟩
    have he : e ∈ rot u := by rw [hr]; simp
    have har := h.links.arc _ _ he
    have hn := nbr_lt h he
    have hp := nbr_pos h he
    rw [unmarkLoop, List.headD_cons, if_neg (by omega), getNbr_eq har.2]
    simp only [Option.bind_eq_bind, Option.bind_some]
    rw [if_neg (by omega), clearVisited_eq hn, Option.bind_some, getAdj_relabel, next_eq h.links hr, Option.bind_some]
    rw [ih (A ++ [e]) fuel (h.relabel _) (by simp [hr]) (by simp at hf; omega)]
    rw [relabel_relabel]
    congr 3
    funext w f
    simp only [unmarkF, heads, List.map_cons, List.mem_cons]
    show (if w ∈ K.map (fun e => (g.E e).nbr) then _ else _) = _
    by_cases h1 : w = (g.E e).nbr
    · simp only [h1, if_true, true_or]
      split <;> omega
    · simp only [h1, if_false, false_or]

theorem checkLoop_spec {h g : Graph} {rot : Nat → List Nat} {u : Nat} (hh : WInv h rot) (hs : g.vSize = h.vSize) :
    ∀ (K A : List Nat) (fuel : Nat), rot u = A ++ K → K.length ≤ fuel →
      checkLoop h g fuel (K.headD 0) = some (decide (∀ w ∈ heads h K, (g.V w).flags % 2 = 0)) := by
  intro K
  induction K with
  | nil =>
    intro A fuel _ _
    cases fuel <;> simp [checkLoop, heads]
  | cons e K ih =>
    intro A fuel hr hf
    obtain ⟨fuel, rfl⟩ : ∃ f, fuel = f + 1 := ⟨fuel - 1, by simp at hf; omega⟩
    have he : e ∈ rot u := by rw [hr]; simp
    have har := hh.links.arc _ _ he
    have hn := nbr_lt hh he
    rw [checkLoop, List.headD_cons, if_neg (by omega), getNbr_eq har.2]
    simp only [Option.bind_eq_bind, Option.bind_some, visited, rdV, show (h.E e).nbr < g.vSize by omega, if_true]
    show (if decide ((g.V (h.E e).nbr).flags % 2 = 1) = true then _ else _) = _
    by_cases hv : (g.V (h.E e).nbr).flags % 2 = 1
    · rw [if_pos (by simpa using hv)]
      have : ¬ ∀ w ∈ heads h (e :: K), (g.V w).flags % 2 = 0 := fun hall => by
        have := hall (h.E e).nbr (by simp [heads]); omega
      simp [this]
    · rw [if_neg (by simpa using hv), next_eq hh.links hr, Option.bind_some,
        ih (A ++ [e]) fuel (by simp [hr]) (by simp at hf; omega)]
      congr 1
      apply decide_eq_decide.2
      simp only [heads, List.map_cons, List.mem_cons, forall_eq_or_imp]
      exact ⟨fun h => ⟨by omega, h⟩, fun h => h.2⟩

theorem rot_le {g : Graph} {rot} (h : WInv g rot) (v) : (rot v).length ≤ g.eSize :=
  nodup_length_le (h.links.nodup v) (fun e he => (h.links.arc v e he).2)

theorem first_eq {g : Graph} {rot} (h : WInv g rot) {v : Nat} (hv : v < g.vSize) :
    g.getArc v false = some ((rot v).headD 0) := by
  rw [getArc_eq hv, h.links.vlink v false hv]; rfl

/-- The flags after one round of the vertex loop. -/
def roundF (A B : List Nat) (w f : Nat) : Nat := unmarkF B w (markF A w f)

theorem subVertex_spec {h g : Graph} {rot rot' : Nat → List Nat} {v d : Nat} (hh : WInv h rot) (hg : WInv g rot')
    (hs : g.vSize = h.vSize) (hv : v < h.vSize) :
    subVertex h v d g = some (g.relabel (roundF (heads h (rot v)) (heads g (rot' v))), d + (rot v).length,
      decide (∀ w ∈ heads h (rot v), w ∈ heads g (rot' v))) := by
  unfold subVertex
  have hl := rot_le hh v
  have hl' := rot_le hg v
  simp only [Option.bind_eq_bind, first_eq hh hv, Option.bind_some]
  rw [markLoop_spec hh (rot v) [] _ _ _ rfl hl hs, Option.bind_some]
  simp only [Bool.not_true, Bool.false_eq_true, if_false]
  have hg1 := hg.relabel (markF (heads h (rot v)))
  rw [first_eq hg1 (show v < (g.relabel _).vSize by rw [show (g.relabel _).vSize = g.vSize from rfl]; omega), Option.bind_some]
  rw [unmarkLoop_spec (rot' v) [] (g.relabel (markF (heads h (rot v)))).eSize hg1 rfl hl', Option.bind_some]
  simp only [Bool.not_true, Bool.false_eq_true, if_false]
  rw [relabel_relabel]
  rw [checkLoop_spec (g := g.relabel _) hh hs (rot v) [] _ rfl hl, Option.bind_some]
  congr 4
  apply propext
  apply forall_congr'
  intro w
  apply imp_congr_right
  intro hw
  show (if w ∈ heads g (rot' v) then (if w ∈ heads h (rot v) then _ else _) / 2 * 2 else (if w ∈ heads h (rot v) then _ else _)) % 2 = 0 ↔ _
  rw [if_pos hw]
  by_cases h1 : w ∈ heads g (rot' v)
  · simp [h1]
  · simp [h1]

/-- The vertex loop: the flags change, nothing else. -/
theorem subLoop_spec {h : Graph} {rot rot' : Nat → List Nat} (hh : WInv h rot) :
    ∀ (k v d : Nat) (g : Graph), WInv g rot' → g.vSize = h.vSize → v + k ≤ h.vSize →
      ∃ F d', subLoop h k v d g = some (g.relabel F, d', decide (∀ u, v ≤ u → u < v + k → ∀ w ∈ heads h (rot u), w ∈ heads g (rot' u))) ∧
        (∀ w f, F w f / 2 = f / 2) ∧
        ((∀ u, v ≤ u → u < v + k → ∀ w ∈ heads h (rot u), w ∈ heads g (rot' u)) →
          d' = d + ((List.range' v k).map fun u => (rot u).length).sum) := by
  intro k
  induction k with
  | zero =>
    intro v d g hg hs hv
    refine ⟨fun _ f => f, d, ?_, fun _ _ => rfl, fun _ => by simp⟩
    simp only [subLoop]
    rw [relabel_id _ _ (fun _ => rfl)]
    congr 3
    symm
    simp only [decide_eq_true_eq]
    intro u h1 h2; omega
  | succ k ih =>
    intro v d g hg hs hv
    rw [subLoop, subVertex_spec hh hg hs (by omega)]
    simp only [Option.bind_eq_bind, Option.bind_some]
    have hF : ∀ A B w f, roundF A B w f / 2 = f / 2 := by
      intro A B w f
      unfold roundF unmarkF markF
      repeat' split
      all_goals omega
    by_cases hok : ∀ w ∈ heads h (rot v), w ∈ heads g (rot' v)
    · rw [if_pos (by simpa using hok)]
      obtain ⟨F, d', h1, h2, h3⟩ := ih (v + 1) (d + (rot v).length) (g.relabel (roundF (heads h (rot v)) (heads g (rot' v))))
        (hg.relabel _) hs (by omega)
      have hiff : (∀ u, v + 1 ≤ u → u < v + 1 + k → ∀ w ∈ heads h (rot u), w ∈ heads (g.relabel (roundF (heads h (rot v)) (heads g (rot' v)))) (rot' u)) ↔
          ∀ u, v ≤ u → u < v + (k + 1) → ∀ w ∈ heads h (rot u), w ∈ heads g (rot' u) := by
        constructor
        · intro hall u hu1 hu2
          rcases Nat.eq_or_lt_of_le hu1 with rfl | hlt
          · exact hok
          · exact hall u hlt (by omega)
        · intro hall u hu1 hu2
          exact hall u (by omega) (by omega)
      refine ⟨fun w f => F w (roundF (heads h (rot v)) (heads g (rot' v)) w f), d', ?_, fun w f => ?_, fun hall => ?_⟩
      · rw [h1, relabel_relabel]
        congr 3
        exact decide_eq_decide.2 hiff
      · rw [h2, hF]
      · rw [h3 (hiff.2 hall), List.range'_succ, List.map_cons, List.sum_cons]; omega
    · rw [if_neg (by simpa using hok)]
      refine ⟨roundF (heads h (rot v)) (heads g (rot' v)), d + (rot v).length, ?_, hF _ _, fun hall => absurd (hall v (by omega) (by omega)) hok⟩
      rw [show (decide (∀ u, v ≤ u → u < v + (k + 1) → ∀ w ∈ heads h (rot u), w ∈ heads g (rot' u))) = false from
        decide_eq_false (fun hall => hok (hall v (by omega) (by omega)))]
      rfl

theorem sum_zero_iff {l : List Nat} : l.sum = 0 ↔ ∀ x ∈ l, x = 0 := by
  induction l with
  | nil => simp
  | cons a l ih => rw [List.sum_cons, List.forall_mem_cons, ← ih]; omega

/-- Arcs in the lists of the primary vertices. -/
theorem sum_primary {g : Graph} {rot} (h : Inv g rot) :
    ((List.range' 1 g.N).map fun u => (rot u).length).sum = 2 * g.M ↔ ∀ v, g.N < v → rot v = [] := by
  have hc := h.count
  unfold allArcs at hc
  rw [List.length_flatMap, show g.vSize = 1 + (g.N + g.N) by unfold vSize; omega, List.range_eq_range',
    ← List.range'_append_1, List.map_append, List.sum_append, ← List.range'_append_1, List.map_append,
    List.sum_append] at hc
  have h0 : rot 0 = [] := by
    cases h0 : rot 0 with
    | nil => rfl
    | cons e K => have := (h.links.vert 0 e (by rw [h0]; simp)).1; omega
  have h1 : ((List.range' 0 1).map fun u => (rot u).length).sum = 0 := by simp [h0]
  rw [h1] at hc
  simp only [Nat.zero_add] at hc
  constructor
  · intro hs v hv
    have hz : ((List.range' (1 + g.N) g.N).map fun u => (rot u).length).sum = 0 := by omega
    by_cases hv2 : v < g.vSize
    · have := sum_zero_iff.1 hz (rot v).length
        (List.mem_map_of_mem (f := fun u => (rot u).length) (List.mem_range'_1.2 (by unfold vSize at hv2; omega)))
      exact List.length_eq_zero_iff.1 this
    · cases hr : rot v with
      | nil => rfl
      | cons e K => have := (h.links.vert v e (by rw [hr]; simp)).2; omega
  · intro hall
    have hz : ((List.range' (1 + g.N) g.N).map fun u => (rot u).length).sum = 0 := by
      apply sum_zero_iff.2
      intro n hn
      obtain ⟨u, hu, rfl⟩ := List.mem_map.1 hn
      rw [hall u (by have := (List.mem_range'_1.1 hu).1; omega)]; rfl
    omega

/-- The subgraph test on two graphs in the same numbering. -/
theorem subBody_spec {h s : PGraph} {rot rot' : Nat → List Nat} (hh : Inv h.g rot) (hs : Inv s.g rot') (hN : s.g.N = h.g.N) :
    ∃ F d ok, subBody h s = some (s.setG (s.g.relabel F), d, ok) ∧ (∀ w f, F w f / 2 = f / 2) ∧
      ((ok && d == 2 * h.g.M) = true ↔ (∀ u, 1 ≤ u → u ≤ h.g.N → ∀ w ∈ heads h.g (rot u), w ∈ heads s.g (rot' u)) ∧
        ∀ v, h.g.N < v → rot v = []) := by
  unfold subBody
  rw [DFS.clearVisitedAll_eq]
  have e1 : ({ s.g with V := fun v => { s.g.V v with flags := if 1 ≤ v ∧ v ≤ s.g.N then (s.g.V v).flags / 2 * 2 else (s.g.V v).flags } } : Graph)
      = s.g.relabel (fun v f => if 1 ≤ v ∧ v ≤ s.g.N then f / 2 * 2 else f) := rfl
  rw [e1]
  obtain ⟨F, d, h1, h2, h3⟩ := subLoop_spec (Inv.weak hh) h.g.N 1 0 _ ((Inv.weak hs).relabel (fun v f => if 1 ≤ v ∧ v ≤ s.g.N then f / 2 * 2 else f))
    (show s.g.vSize = h.g.vSize by unfold vSize; omega) (by unfold vSize; omega)
  simp only [Option.bind_eq_bind, Option.bind_some]
  rw [h1]
  refine ⟨fun w f => F w (if 1 ≤ w ∧ w ≤ s.g.N then f / 2 * 2 else f), d, _, rfl, fun w f => ?_, ?_⟩
  · rw [h2]; split <;> omega
  · rw [Bool.and_eq_true, beq_iff_eq, decide_eq_true_eq]
    constructor
    · rintro ⟨ha, hb⟩
      have hd := h3 ha
      refine ⟨fun u hu1 hu2 => ha u hu1 (by omega), (sum_primary hh).1 (by omega)⟩
    · rintro ⟨ha, hb⟩
      have ha' : ∀ u, 1 ≤ u → u < 1 + h.g.N → ∀ w ∈ heads h.g (rot u), w ∈ heads s.g (rot' u) :=
        fun u h1 h2 => ha u h1 (by omega)
      have hd := h3 ha'
      have := (sum_primary hh).2 hb
      exact ⟨ha', by omega⟩

end Test
end Verif
