import Verif.Graph.History

/-
Helper lemmas for the history theorems: simulation of the abstract edge table, and the loops of
the query functions.
-/
namespace Verif
open Function
namespace Graph

/-- Simulation relation between a graph and an abstract edge table: entry `(x, a, b)` is an edge
whose arc `x` is in the list of `a` and points to `b`, the other arc being `twin x`. -/
structure Sim (g : Graph) (rot : Nat → List Nat) (T : List (Nat × Nat × Nat)) : Prop where
  inv : Inv g rot
  mem : ∀ v e, e ∈ rot v ↔ ∃ x a b, (x, a, b) ∈ T ∧ ((e = x ∧ v = a) ∨ (e = twin x ∧ v = b))
  keys : (T.map (fun t => t.1 / 2)).Nodup
  count : g.M = T.length

theorem Sim.nbr {g rot T} (h : Sim g rot T) {x a b : Nat} (ht : (x, a, b) ∈ T) :
    (g.E x).nbr = b ∧ (g.E (twin x)).nbr = a := by
  have h1 : x ∈ rot a := (h.mem a x).2 ⟨x, a, b, ht, .inl ⟨rfl, rfl⟩⟩
  have h2 : twin x ∈ rot b := (h.mem b _).2 ⟨x, a, b, ht, .inr ⟨rfl, rfl⟩⟩
  have := h.inv.owner b _ h2
  rw [twin_twin] at this
  exact ⟨this, h.inv.owner a x h1⟩

theorem Sim.put {g rot T} (h : Sim g rot T) (hM : g.M < g.arcCap / 2)
    {u eu v ev : Nat} (bu bv : Bool) (hu : 1 ≤ u ∧ u < g.vSize) (hv : 1 ≤ v ∧ v < g.vSize)
    (heu : eu = 0 ∨ eu ∈ rot u) (hev : ev = 0 ∨ ev ∈ rot v) :
    ∃ g' rot' x, putEdge g.takeSlot.2 u eu bu v ev bv g.takeSlot.1 = some (g', .ok) ∧
      (∀ t ∈ T, t.1 / 2 ≠ x / 2) ∧ Sim g' rot' ((x, u, v) :: T) := by
  obtain ⟨g', hg', hI, hM', -⟩ := putEdge_spec h.inv hM bu bv hu hv heu hev
  obtain ⟨_, _, _, hxf, htf, -⟩ := takeSlot_spec h.inv hM
  generalize g.takeSlot.1 = y at *
  have hfresh : ∀ t ∈ T, t.1 / 2 ≠ twin y / 2 := by
    rintro ⟨x, a, b⟩ ht hd
    have h1 : x ∈ rot a := (h.mem a x).2 ⟨x, a, b, ht, .inl ⟨rfl, rfl⟩⟩
    rw [twin_div] at hd
    rcases div_eq_cases hd with hh | hh
    · exact hxf a (hh ▸ h1)
    · exact htf a (hh ▸ h1)
  refine ⟨g', _, twin y, hg', hfresh, hI, ?_, ?_, ?_⟩
  · intro w e
    rw [mem_placeRot heu hev, h.mem]
    constructor
    · rintro (⟨rfl, rfl⟩ | ⟨rfl, rfl⟩ | ⟨x, a, b, ht, hh⟩)
      · exact ⟨_, _, _, List.mem_cons_self, .inl ⟨rfl, rfl⟩⟩
      · exact ⟨_, _, _, List.mem_cons_self, .inr ⟨(twin_twin _).symm, rfl⟩⟩
      · exact ⟨x, a, b, List.mem_cons_of_mem _ ht, hh⟩
    · rintro ⟨x, a, b, ht, hh⟩
      rcases List.mem_cons.1 ht with ht | ht
      · cases ht
        rcases hh with ⟨h1, h2⟩ | ⟨h1, h2⟩
        · exact .inl ⟨h1, h2⟩
        · rw [twin_twin] at h1; exact .inr (.inl ⟨h1, h2⟩)
      · exact .inr (.inr ⟨x, a, b, ht, hh⟩)
  · rw [List.map_cons, List.nodup_cons]
    refine ⟨fun hm => ?_, h.keys⟩
    obtain ⟨t, ht, hd⟩ := List.mem_map.1 hm
    exact hfresh t ht hd
  · rw [hM', h.count]; rfl

theorem filter_length_of_key {T : List (Nat × Nat × Nat)} {k : Nat}
    (hn : (T.map (fun t => t.1 / 2)).Nodup) (hk : ∃ t ∈ T, t.1 / 2 = k) :
    (T.filter (fun t => t.1 / 2 ≠ k)).length + 1 = T.length := by
  induction T with
  | nil => simp at hk
  | cons t T ih =>
    rw [List.map_cons, List.nodup_cons] at hn
    by_cases ht : t.1 / 2 = k
    · have hno : ∀ t' ∈ T, t'.1 / 2 ≠ k := by
        intro t' ht' hh
        exact hn.1 (List.mem_map.2 ⟨t', ht', hh.trans ht.symm⟩)
      have : T.filter (fun t => t.1 / 2 ≠ k) = T := by
        rw [List.filter_eq_self]; intro a ha; simpa using hno a ha
      simp only [List.filter_cons, ht, ne_eq, not_true_eq_false, decide_false, Bool.false_eq_true,
        if_false, List.length_cons]
      simp only [ne_eq] at this
      rw [this]
    · have hk' : ∃ t ∈ T, t.1 / 2 = k := by
        obtain ⟨t', ht', hh⟩ := hk
        rcases List.mem_cons.1 ht' with rfl | ht'
        · exact absurd hh ht
        · exact ⟨t', ht', hh⟩
      have := ih hn.2 hk'
      simp only [ne_eq] at this
      simp only [List.filter_cons, ht, ne_eq, not_false_eq_true, decide_true, if_true,
        List.length_cons]
      omega

theorem Sim.delete {g rot T} (h : Sim g rot T) {e v : Nat} (he : e ∈ rot v) (nl : Nat) (b : Bool)
    (hb : linkOf nl = some b) :
    ∃ g' a, g.deleteEdge e nl = some (g', a) ∧
      Sim g' (removeRot e rot) (T.filter (fun t => t.1 / 2 ≠ e / 2)) := by
  obtain ⟨g', hg', hI, hM', -⟩ := deleteEdge_spec h.inv he nl b hb
  refine ⟨g', _, hg', hI, ?_, ?_, ?_⟩
  · intro w a
    rw [mem_removeRot, h.mem]
    constructor
    · rintro ⟨⟨x, p, q, ht, hh⟩, h1, h2⟩
      refine ⟨x, p, q, List.mem_filter.2 ⟨ht, ?_⟩, hh⟩
      simp only [ne_eq, decide_not, Bool.not_eq_eq_eq_not, Bool.not_true, decide_eq_false_iff_not]
      intro hd
      have : a / 2 = e / 2 := by
        rcases hh with ⟨rfl, _⟩ | ⟨rfl, _⟩
        · exact hd
        · rw [twin_div]; exact hd
      rcases div_eq_cases this with hh | hh
      · exact h1 hh
      · exact h2 hh
    · rintro ⟨x, p, q, ht, hh⟩
      obtain ⟨ht, hd⟩ := List.mem_filter.1 ht
      simp only [ne_eq, decide_not, Bool.not_eq_eq_eq_not, Bool.not_true,
        decide_eq_false_iff_not] at hd
      have ha : a / 2 ≠ e / 2 := by
        rcases hh with ⟨rfl, _⟩ | ⟨rfl, _⟩
        · exact hd
        · rw [twin_div]; exact hd
      refine ⟨⟨x, p, q, ht, hh⟩, fun hh => ha (by rw [hh]), fun hh => ha (by rw [hh, twin_div])⟩
  · exact h.keys.sublist (List.Sublist.map _ List.filter_sublist)
  · obtain ⟨x, p, q, ht, hh⟩ := (h.mem v e).1 he
    have := filter_length_of_key (k := e / 2) h.keys ⟨_, ht, by
      rcases hh with ⟨rfl, _⟩ | ⟨rfl, _⟩
      · rfl
      · rw [twin_div]⟩
    have hc := h.count
    omega

theorem Sim.direct {g rot T} (h : Sim g rot T) {e v : Nat} (he : e ∈ rot v) (d : Nat) :
    ∃ g', g.setDirection e d = some g' ∧ Sim g' rot T := by
  obtain ⟨g', hg', hI, -, hM, -⟩ := setDirection_spec h.inv he d
  exact ⟨g', hg', hI, h.mem, h.keys, by rw [hM]; exact h.count⟩

/-! ### Query loops -/

theorem isNeighborLoop_suffix {g : Graph} {rot : Nat → List Nat} (hL : Links g rot) {u : Nat}
    (v : Nat) : ∀ (K A : List Nat) (fuel : Nat), rot u = A ++ K → K.length ≤ fuel →
      g.isNeighborLoop v fuel (K.headD 0) =
        some (K.any fun e => (g.E e).nbr = v ∧ (g.E e).flags &&& DIRMASK ≠ INONLY) := by
  intro K
  induction K with
  | nil => intro A fuel _ _; cases fuel <;> simp [isNeighborLoop]
  | cons a K ih =>
    intro A fuel h hf
    have ha : a ∈ rot u := by rw [h]; simp
    have har := hL.arc _ _ ha
    have ha0 : a ≠ 0 := by omega
    cases fuel with
    | zero => simp at hf
    | succ fuel =>
      simp only [List.headD_cons, isNeighborLoop, ha0, if_false, rdE, har.2, if_true,
        Option.bind_eq_bind, Option.bind_some]
      have hnx : (g.E a).next = K.headD 0 := by
        have := hL.elink u false a ha
        simp only [ERec.link, Bool.false_eq_true, if_false, dir_false] at this
        rw [this, h]
        have hnd : (A ++ a :: K).Nodup := h ▸ hL.nodup u
        have haA : a ∉ A := by
          rw [List.nodup_append] at hnd
          intro hh; exact hnd.2.2 a hh a (by simp) rfl
        rw [nextIn_append_right haA, nextIn_cons_self]
      rw [hnx, ih (A ++ [a]) fuel (by simp [h]) (by simpa using hf)]
      by_cases hc : (g.E a).nbr = v ∧ (g.E a).flags &&& DIRMASK ≠ INONLY
      · rw [if_pos hc]; simp [hc]
      · rw [if_neg hc, List.any_cons, decide_eq_false hc, Bool.false_or]

theorem neighborEdgeLoop_suffix {g : Graph} {rot : Nat → List Nat} (hL : Links g rot) {u : Nat}
    (v : Nat) : ∀ (K A : List Nat) (fuel : Nat), rot u = A ++ K → K.length ≤ fuel →
      g.neighborEdgeLoop v fuel (K.headD 0) =
        some ((K.find? fun e => (g.E e).nbr = v).getD 0) := by
  intro K
  induction K with
  | nil => intro A fuel _ _; cases fuel <;> simp [neighborEdgeLoop]
  | cons a K ih =>
    intro A fuel h hf
    have ha : a ∈ rot u := by rw [h]; simp
    have har := hL.arc _ _ ha
    have ha0 : a ≠ 0 := by omega
    cases fuel with
    | zero => simp at hf
    | succ fuel =>
      simp only [List.headD_cons, neighborEdgeLoop, ha0, if_false, rdE, har.2, if_true,
        Option.bind_eq_bind, Option.bind_some]
      have hnx : (g.E a).next = K.headD 0 := by
        have := hL.elink u false a ha
        simp only [ERec.link, Bool.false_eq_true, if_false, dir_false] at this
        rw [this, h]
        have hnd : (A ++ a :: K).Nodup := h ▸ hL.nodup u
        have haA : a ∉ A := by
          rw [List.nodup_append] at hnd
          intro hh; exact hnd.2.2 a hh a (by simp) rfl
        rw [nextIn_append_right haA, nextIn_cons_self]
      rw [hnx, ih (A ++ [a]) fuel (by simp [h]) (by simpa using hf)]
      by_cases hc : (g.E a).nbr = v
      · rw [if_pos hc]; simp [hc]
      · rw [if_neg hc]; simp [hc]

theorem degreeLoop_suffix {g : Graph} {rot : Nat → List Nat} (hL : Links g rot) {u : Nat}
    (skip : Nat) : ∀ (K A : List Nat) (fuel d : Nat), rot u = A ++ K → K.length ≤ fuel →
      g.degreeLoop skip fuel (K.headD 0) d =
        some (d + K.countP fun e => (g.E e).flags &&& DIRMASK ≠ skip) := by
  intro K
  induction K with
  | nil => intro A fuel d _ _; cases fuel <;> simp [degreeLoop]
  | cons a K ih =>
    intro A fuel d h hf
    have ha : a ∈ rot u := by rw [h]; simp
    have har := hL.arc _ _ ha
    have ha0 : a ≠ 0 := by omega
    cases fuel with
    | zero => simp at hf
    | succ fuel =>
      simp only [List.headD_cons, degreeLoop, ha0, if_false, rdE, har.2, if_true,
        Option.bind_eq_bind, Option.bind_some]
      have hnx : (g.E a).next = K.headD 0 := by
        have := hL.elink u false a ha
        simp only [ERec.link, Bool.false_eq_true, if_false, dir_false] at this
        rw [this, h]
        have hnd : (A ++ a :: K).Nodup := h ▸ hL.nodup u
        have haA : a ∉ A := by
          rw [List.nodup_append] at hnd
          intro hh; exact hnd.2.2 a hh a (by simp) rfl
        rw [nextIn_append_right haA, nextIn_cons_self]
      rw [hnx, ih (A ++ [a]) fuel _ (by simp [h]) (by simpa using hf)]
      by_cases hc : (g.E a).flags &&& DIRMASK ≠ skip
      · rw [if_pos hc]; simp only [List.countP_cons, decide_eq_true hc, if_true]; congr 1; omega
      · rw [if_neg hc]; simp only [List.countP_cons, decide_eq_false hc]; rfl

theorem Links.length_le {g rot} (hL : Links g rot) (v : Nat) : (rot v).length ≤ g.eSize :=
  nodup_length_le (hL.nodup v) (fun x hx => (hL.arc v x hx).2)

theorem Links.first {g rot} (hL : Links g rot) {v : Nat} (hv : v < g.vSize) :
    (g.V v).first = (rot v).headD 0 := hL.vlink v false hv

theorem degree_loop_eq {g rot} (hL : Links g rot) {v : Nat} (hv : v < g.vSize) (skip : Nat) :
    (do g.degreeLoop skip g.eSize (← g.rdV v).first 0 : Option Nat) =
      some ((rot v).countP fun e => (g.E e).flags &&& DIRMASK ≠ skip) := by
  simp only [rdV, hv, if_true, Option.bind_eq_bind, Option.bind_some]
  rw [hL.first hv, degreeLoop_suffix hL skip (rot v) [] _ _ rfl (hL.length_le v)]
  simp

/-- Direction values are never 1. -/
theorem dir_ne_one (f : Nat) : f &&& DIRMASK ≠ 1 := by
  intro h
  have := congrArg (fun n => n.testBit 0) h
  simp [DIRMASK] at this

end Graph
end Verif
