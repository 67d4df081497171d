import Verif.Draw.Columns

/-
The columns of the vertices and the rows of the edges.
-/
namespace Verif
namespace Draw
open Graph Props LC DFS PGraph

variable {s : PGraph} {rot : Nat → List Nat} {par : Nat → Nat}

theorem rangeArcs_spec {g : Graph} {c : Ctx} : ∀ (es : List Nat) (fuel e : Nat) (lo hi : Int), g.walkFrom false fuel e = some es →
    (∀ x ∈ es, x < g.eSize) → ∃ lo' hi', rangeArcs g c fuel e lo hi = some (lo', hi') ∧ lo' ≤ lo ∧ hi ≤ hi' ∧
      (∀ x ∈ es, lo' ≤ (c.E x).pos ∧ (c.E x).pos ≤ hi') ∧ (lo' = lo ∨ ∃ x ∈ es, lo' = (c.E x).pos) ∧
      (hi' = hi ∨ ∃ x ∈ es, hi' = (c.E x).pos) := by
  intro es
  induction es with
  | nil =>
    intro fuel e lo hi hw _
    rcases walkFrom_cons hw with ⟨rfl, _⟩ | ⟨_, _, _, _, _, h, _⟩
    · exact ⟨lo, hi, by cases fuel <;> simp [rangeArcs], le_rfl, le_rfl, by simp, .inl rfl, .inl rfl⟩
    · cases h
  | cons a es ih =>
    intro fuel e' lo hi hw hx
    rcases walkFrom_cons hw with ⟨_, h⟩ | ⟨he, fuel', n, es', rfl, h', ha, hr⟩
    · cases h
    · cases h'
      have hlt := hx a (by simp)
      obtain ⟨lo', hi', h1, h2, h3, h4, h5, h6⟩ := ih fuel' n (if lo > (c.E a).pos then (c.E a).pos else lo)
        (if hi < (c.E a).pos then (c.E a).pos else hi) hr (fun x hx' => hx x (by simp [hx']))
      refine ⟨lo', hi', ?_, ?_, ?_, ?_, ?_, ?_⟩
      · unfold rangeArcs
        have hrd : rdDE c g a = some (c.E a) := if_pos hlt
        rw [if_neg he, hrd]
        simp only [Option.bind_eq_bind, Option.bind_some]
        rw [ha, Option.bind_some]
        exact h1
      · split at h2 <;> omega
      · split at h3 <;> omega
      · intro x hx'
        rcases List.mem_cons.1 hx' with rfl | hx'
        · refine ⟨?_, ?_⟩
          · split at h2 <;> omega
          · split at h3 <;> omega
        · exact h4 x hx'
      · rcases h5 with h5 | ⟨x, hx', h5⟩
        · split at h5
          · exact .inr ⟨a, by simp, h5⟩
          · exact .inl h5
        · exact .inr ⟨x, by simp [hx'], h5⟩
      · rcases h6 with h6 | ⟨x, hx', h6⟩
        · split at h6
          · exact .inr ⟨a, by simp, h6⟩
          · exact .inl h6
        · exact .inr ⟨x, by simp [hx'], h6⟩

/-- The columns of `v` are those from its first to its last edge. -/
def Seg (rot : Nat → List Nat) (c : Ctx) (v : Nat) : Prop :=
  (rot v = [] → (c.VI v).start = 0 ∧ (c.VI v).stop = 0) ∧
  (∀ e ∈ rot v, (c.VI v).start ≤ (c.E e).pos ∧ (c.E e).pos ≤ (c.VI v).stop) ∧
  (rot v ≠ [] → (∃ e ∈ rot v, (c.VI v).start = (c.E e).pos) ∧ ∃ e ∈ rot v, (c.VI v).stop = (c.E e).pos)

theorem rangeOf_spec (hp : PInv s rot) {c : Ctx} (hc : ∀ u e, e ∈ rot u → 0 ≤ (c.E e).pos ∧ (c.E e).pos < s.g.M) {v : Nat}
    (hv : IsPrimary s v) : ∃ c', rangeOf s.g c v = some c' ∧ c'.E = c.E ∧ (∀ x, x ≠ v → c'.VI x = c.VI x) ∧
      (c'.VI v = { c.VI v with start := (c'.VI v).start, stop := (c'.VI v).stop }) ∧ Seg rot c' v := by
  have hvs : v < s.g.vSize := by unfold vSize; have := hv.2; omega
  have hvl : v < 1 + s.g.N := by have := hv.2; omega
  have hwk := walk_eq hp.inv.links hvs false
  unfold walk at hwk
  cases hfa : s.g.getArc v false with
  | none => simp [hfa] at hwk
  | some f =>
    have hwk' : s.g.walkFrom false s.g.eSize f = some (rot v) := by simpa [hfa, dir] using hwk
    have hrd : rdDV c s.g v = some (c.VI v) := if_pos hvl
    have hwr : ∀ d, wrDV c s.g v d = some { c with VI := Function.update c.VI v d } := fun d => if_pos hvl
    unfold rangeOf
    rw [hfa]
    simp only [Option.bind_eq_bind, Option.bind_some]
    have hf0 : f = 0 ↔ rot v = [] := by
      have h1 := getArc_eq (g := s.g) hvs false
      rw [hfa, hp.inv.links.vlink v false hvs, Option.some.injEq] at h1
      rw [h1]
      exact endIn_zero_iff (hp.inv.links.zero_not_mem v)
    by_cases h0 : f = 0
    · rw [if_pos h0]
      simp only [Option.bind_some, hrd, hwr]
      have hnil := hf0.1 h0
      refine ⟨_, rfl, rfl, fun x hx => Function.update_of_ne hx _ _, by simp, ?_⟩
      refine ⟨fun _ => by simp, by rw [hnil]; simp, fun h => absurd hnil h⟩
    · rw [if_neg h0]
      obtain ⟨lo, hi, h1, h2, h3, h4, h5, h6⟩ := rangeArcs_spec (c := c) (rot v) s.g.eSize f (s.g.M + 1) (-1) hwk'
        (fun x hx => (hp.inv.links.arc v x hx).2)
      rw [h1]
      simp only [Option.bind_some, hrd, hwr]
      refine ⟨_, rfl, rfl, fun x hx => Function.update_of_ne hx _ _, by simp, ?_⟩
      have hne : rot v ≠ [] := fun h => h0 (hf0.2 h)
      obtain ⟨a, ha⟩ := List.exists_mem_of_ne_nil _ hne
      have hca := hc v a ha
      have h4a := h4 a ha
      refine ⟨fun h => absurd h hne, ?_, fun _ => ⟨?_, ?_⟩⟩
      · intro e he
        simp only [Function.update_self]
        exact h4 e he
      · simp only [Function.update_self]
        rcases h5 with h5 | h5
        · omega
        · exact h5
      · simp only [Function.update_self]
        rcases h6 with h6 | h6
        · omega
        · exact h6

theorem vertexRanges_spec (hp : PInv s rot) : ∀ (l : List Nat) (c : Ctx), (∀ v ∈ l, IsPrimary s v) →
    (∀ u e, e ∈ rot u → 0 ≤ (c.E e).pos ∧ (c.E e).pos < s.g.M) →
    ∃ c', l.foldlM (rangeOf s.g) c = some c' ∧ c'.E = c.E ∧
      (∀ v, c'.VI v = { c.VI v with start := (c'.VI v).start, stop := (c'.VI v).stop }) ∧ (∀ v, v ∉ l → c'.VI v = c.VI v) ∧
      ∀ v ∈ l, Seg rot c' v := by
  intro l
  induction l with
  | nil => intro c _ _; exact ⟨c, rfl, rfl, fun _ => rfl, fun _ _ => rfl, by simp⟩
  | cons a l ih =>
    intro c hl hc
    obtain ⟨c1, h1, h2, h3, h4, h5⟩ := rangeOf_spec hp hc (hl a (by simp))
    obtain ⟨c', j1, j2, j3, j4, j5⟩ := ih c1 (fun v hv => hl v (by simp [hv])) (by rw [h2]; exact hc)
    refine ⟨c', ?_, by rw [j2, h2], ?_, ?_, ?_⟩
    · rw [List.foldlM_cons, h1]
      exact j1
    · intro v
      rw [j3 v]
      by_cases hv : v = a
      · subst hv
        rw [h4]
      · rw [h3 v hv]
    · intro v hv
      rw [List.mem_cons, not_or] at hv
      rw [j4 v hv.2, h3 v hv.1]
    · intro v hv
      by_cases hvl : v ∈ l
      · exact j5 v hvl
      · have : v = a := (List.mem_cons.1 hv).resolve_right hvl
        subst this
        unfold Seg at h5 ⊢
        rw [j4 v hvl, j2]
        exact h5

/-- The rows of an edge are those from one end to the other. -/
def Run (g : Graph) (c : Ctx) (e : Nat) : Prop :=
  (c.E e).start = min (c.VI (g.E e).nbr).pos (c.VI (g.E (twin e)).nbr).pos ∧
  (c.E e).stop = max (c.VI (g.E e).nbr).pos (c.VI (g.E (twin e)).nbr).pos

theorem edgeRange_spec (hp : PInv s rot) {c : Ctx} {u e : Nat} (he : e ∈ rot u) :
    ∃ c', edgeRange s.g c e = some c' ∧ c'.VI = c.VI ∧ (∀ x, x / 2 ≠ e / 2 → c'.E x = c.E x) ∧
      (∀ x, c'.E x = { c.E x with start := (c'.E x).start, stop := (c'.E x).stop }) ∧ Run s.g c' e ∧ Run s.g c' (twin e) := by
  have htw := hp.inv.twins u e he
  have hlt := (hp.inv.links.arc u e he).2
  have hlt' := (hp.inv.links.arc _ _ htw).2
  have hn : (s.g.E e).nbr < 1 + s.g.N := by have := (nbr_primary hp he).2; omega
  have hn' : (s.g.E (twin e)).nbr < 1 + s.g.N := by have := (nbr_primary hp htw).2; omega
  unfold edgeRange
  have r1 : rdDV c s.g (s.g.E e).nbr = some (c.VI (s.g.E e).nbr) := if_pos hn
  have r2 : rdDV c s.g (s.g.E (twin e)).nbr = some (c.VI (s.g.E (twin e)).nbr) := if_pos hn'
  have r3 : rdDE c s.g e = some (c.E e) := if_pos hlt
  have r4 : ∀ d, wrDE c s.g e d = some { c with E := Function.update c.E e d } := fun d => if_pos hlt
  have r5 : ∀ c : Ctx, rdDE c s.g (twin e) = some (c.E (twin e)) := fun c => if_pos hlt'
  have r6 : ∀ (c : Ctx) d, wrDE c s.g (twin e) d = some { c with E := Function.update c.E (twin e) d } := fun c d => if_pos hlt'
  rw [getNbr_eq hlt, getNbr_eq hlt']
  simp only [Option.bind_eq_bind, Option.bind_some, r1, r2, r3, r4, r5, r6]
  have hne := twin_ne e
  have hmin : ∀ a b : Int, (if a < b then a else b) = min a b := fun a b => by split <;> omega
  have hmax : ∀ a b : Int, (if a < b then b else a) = max a b := fun a b => by split <;> omega
  refine ⟨_, rfl, rfl, ?_, ?_, ?_, ?_⟩
  · intro x hx
    have h1 : x ≠ twin e := fun h => hx (by rw [h, twin_div])
    have h2 : x ≠ e := fun h => hx (by rw [h])
    dsimp only
    rw [Function.update_of_ne h1, Function.update_of_ne h2]
  · intro x
    dsimp only
    by_cases h1 : x = twin e
    · subst h1
      simp only [Function.update_self, Function.update_of_ne hne]
    · simp only [Function.update_of_ne h1]
      by_cases h2 : x = e
      · subst h2
        simp only [Function.update_self]
      · simp only [Function.update_of_ne h2]
  · unfold Run
    simp only [Function.update_of_ne (Ne.symm hne), Function.update_self, hmin, hmax, and_self]
  · unfold Run
    simp only [Function.update_self, hmin, hmax, twin_twin]
    exact ⟨min_comm _ _, max_comm _ _⟩

theorem edgeRanges_spec (hp : PInv s rot) : ∀ (l : List Nat) (c : Ctx), (∀ e ∈ l, ∃ u, e ∈ rot u) →
    ∃ c', l.foldlM (edgeRange s.g) c = some c' ∧ c'.VI = c.VI ∧
      (∀ x, c'.E x = { c.E x with start := (c'.E x).start, stop := (c'.E x).stop }) ∧
      (∀ x, (∀ e ∈ l, x / 2 ≠ e / 2) → c'.E x = c.E x) ∧ ∀ e ∈ l, Run s.g c' e ∧ Run s.g c' (twin e) := by
  intro l
  induction l with
  | nil => intro c _; exact ⟨c, rfl, rfl, fun _ => rfl, fun _ _ => rfl, by simp⟩
  | cons a l ih =>
    intro c hl
    obtain ⟨u, hu⟩ := hl a (by simp)
    obtain ⟨c1, h1, h2, h3, h4, h5, h6⟩ := edgeRange_spec hp (c := c) hu
    obtain ⟨c', j1, j2, j3, j4, j5⟩ := ih c1 (fun v hv => hl v (by simp [hv]))
    refine ⟨c', ?_, by rw [j2, h2], ?_, ?_, ?_⟩
    · rw [List.foldlM_cons, h1]
      exact j1
    · intro x
      rw [j3 x, h4 x]
    · intro x hx
      rw [j4 x (fun e he => hx e (by simp [he])), h3 x (hx a (by simp))]
    · intro e he
      by_cases hq : ∃ e' ∈ l, e / 2 = e' / 2
      · obtain ⟨e', he', hq⟩ := hq
        obtain ⟨k1, k2⟩ := j5 e' he'
        rcases div_eq_cases hq with rfl | rfl
        · exact ⟨k1, k2⟩
        · rw [twin_twin]
          exact ⟨k2, k1⟩
      · push Not at hq
        have hea : e = a := by
          rcases List.mem_cons.1 he with h | h
          · exact h
          · exact absurd rfl (hq e h)
        subst hea
        unfold Run at h5 h6 ⊢
        rw [j4 e hq, j4 (twin e) (fun e' he' => by rw [twin_div]; exact hq e' he'), j2]
        exact ⟨h5, h6⟩

end Draw
end Verif
