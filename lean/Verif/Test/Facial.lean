import Verif.Test.Euler

/-
What `_CheckEmbeddingFacialIntegrity` computes.
-/
namespace Verif
namespace Test
open Graph Map Equiv Equiv.Perm Props DFS

/-- Vertices without parent. -/
def rootList (s : PGraph) : List Nat := (List.range' 1 s.g.N).filter fun v => decide ((s.VI v).parent = 0)

/-- Roots with arcs. -/
def edgedRoots (s : PGraph) (rot : Nat → List Nat) : List Nat := (rootList s).filter fun v => !(rot v).isEmpty

theorem getParent_eq {s : PGraph} {v : Nat} (hv : v ≤ s.g.N) : s.getParent v = some (s.VI v).parent := by
  unfold PGraph.getParent PGraph.rdVI
  rw [if_pos (by omega)]; rfl

theorem degree_eq {g : Graph} {rot} (h : WInv g rot) {v : Nat} (h1 : 1 ≤ v) (hv : v < g.vSize) :
    g.degree v = some (rot v).length := by
  unfold degree
  rw [if_neg (by omega), degree_loop_eq h.links hv 1]
  congr 1
  rw [List.countP_eq_length]
  intro e _
  simp only [ne_eq, decide_not, Bool.not_eq_true', decide_eq_false_iff_not]
  intro hc
  have h2 : ((g.E e).flags &&& DIRMASK) % 2 = 1 := by rw [hc]
  have h4 := Nat.testBit_and (g.E e).flags DIRMASK 0
  rw [Nat.testBit_zero, h2] at h4
  simp [DIRMASK] at h4

theorem rootLoop_spec {s : PGraph} {rot} (h : WInv s.g rot) (c : Int) : ∀ k, k ≤ s.g.N →
    (List.range k).foldlM (fun fc i => rootStep s fc (i + 1)) (c, (0 : Int)) =
      some (c - (((List.range' 1 k).filter fun v => decide ((s.VI v).parent = 0)).filter fun v => !(rot v).isEmpty).length,
        (((List.range' 1 k).filter fun v => decide ((s.VI v).parent = 0)).length : Int)) := by
  intro k
  induction k with
  | zero => simp
  | succ k ih =>
    intro hk
    rw [List.range_succ, List.foldlM_append, ih (by omega)]
    have hr : List.range' 1 (k + 1) = List.range' 1 k ++ [k + 1] := by
      rw [List.range'_concat]; simp [Nat.add_comm]
    rw [hr]
    simp only [Option.bind_eq_bind, Option.bind_some, List.foldlM_cons, List.foldlM_nil, List.filter_append]
    unfold rootStep
    rw [getParent_eq (by omega)]
    simp only [Option.bind_eq_bind, Option.bind_some]
    by_cases hp : (s.VI (k + 1)).parent = 0
    · rw [if_pos hp, degree_eq h (by omega) (by unfold vSize; omega)]
      simp only [hp, List.filter_cons, decide_true, if_true, List.filter_nil, List.length_append, List.length_cons,
        List.length_nil, Option.bind_some]
      cases hrot : rot (k + 1) with
      | nil => simp
      | cons a K =>
        simp
        omega
    · rw [if_neg hp]
      simp [hp]

theorem eulerTest_spec {s : PGraph} {rot} (h : WInv s.g rot) (k : Nat) :
    ∃ r, eulerTest s k = some r ∧ (r = .ok ∨ r = .notok) ∧
      (r = .ok ↔ k + s.g.N = s.g.M + (rootList s).length + (edgedRoots s rot).length) := by
  unfold eulerTest
  rw [rootLoop_spec h _ _ le_rfl]
  refine ⟨_, rfl, ?_, ?_⟩
  · split
    · exact .inl rfl
    · exact .inr rfl
  · unfold rootList edgedRoots rootList
    simp only
    split
    · rename_i hh
      simp only [true_iff]
      omega
    · rename_i hh
      simp only [reduceCtorEq, false_iff]
      omega

/-- `s'` differs from `s` in edge visited marks and the stack only. -/
theorem PInv.flagged {s : PGraph} {rot} (h : PInv s rot) {F st} (h1 : ∀ e, F e / 2 = (s.g.E e).flags / 2)
    (h2 : ∀ e, (¬ ∃ u, e ∈ rot u) → F e = (s.g.E e).flags) : PInv (s.setG (flagged s.g F st)) rot := by
  have hE : ∀ e, (F e) &&& 14 = (s.g.E e).flags &&& 14 := by
    intro e
    apply Nat.eq_of_testBit_eq
    intro i
    rw [Nat.testBit_and, Nat.testBit_and]
    cases i with
    | zero => simp [Nat.testBit_zero]
    | succ i => rw [Nat.testBit_succ, h1, ← Nat.testBit_succ]
  refine ⟨?_, h.prim, h.cap, h.cap', ?_, fun hd => ⟨?_, (h.numbered hd).2⟩, h.unsorted⟩
  · refine h.inv.congr (g' := Test.flagged s.g F st) rfl rfl rfl rfl rfl (fun v b => rfl) (fun e b => by cases b <;> rfl) (fun e => rfl) ?_
    intro e he
    show ({ s.g.E e with flags := F e } : ERec) = s.g.E e
    rw [h2 e (by push Not; exact he)]
  · intro hd
    have := h.fresh hd
    exact ⟨fun u e he => by
      show F e &&& 14 = 0
      rw [hE]; exact this.1 u e he, this.2⟩
  · obtain ⟨inv, h1, h2⟩ := (h.numbered hd).1
    exact ⟨inv, h1, h2⟩

theorem checkFacial_spec {s : PGraph} {rot} (h : PInv s rot) :
    ∃ (Fl : Nat → Nat) (r : Res) (L : List Nat), checkFacial s = some (s.setG (flagged s.g Fl []), r) ∧
      (∀ e, Fl e / 2 = (s.g.E e).flags / 2) ∧ (∀ e, (¬ ∃ u, e ∈ rot u) → Fl e = (s.g.E e).flags) ∧
      Transversal (Live s.g) (SameFace s.g) L ∧ (r = .ok ∨ r = .notok) ∧
      (r = .ok ↔ L.length + s.g.N = s.g.M + (rootList s).length + (edgedRoots s rot).length) := by
  have hcap : 2 * s.g.M ≤ s.g.stackCap := by
    have := h.inv.room; have := h.inv.even; have := h.cap; omega
  obtain ⟨F, e1, e2, e3, e4⟩ := pushLoop_spec h.inv hcap _ le_rfl
  have hlen := pushed_length h.inv
  have hin : s.g.inUse = 2 + (s.g.M + s.g.holes.length) * 2 := rfl
  obtain ⟨F', R, f1, f2, f3, f4, f5⟩ := facesLoop_spec h.inv.weak F (pushed s.g (s.g.M + s.g.holes.length)) (2 * s.g.M) F []
    (by omega) (fun e he => (mem_pushed_all h.inv e).1 he) List.Pairwise.nil (fun _ => rfl)
    (fun d => by
      obtain ⟨u, hu⟩ := d.2
      have := e2 d.1 d.2 (by have := h.inv.below u _ hu; omega)
      simp; omega)
    (fun d => .inl ((mem_pushed_all h.inv _).2 d.2)) (fun _ _ => rfl)
  obtain ⟨r, g1, g2, g3⟩ := eulerTest_spec (s := s.setG (flagged s.g F' [])) (rot := rot) (WInv.flagged h.inv.weak _ _) R.length
  refine ⟨F', r, R.map (·.1), ?_, fun e => by rw [f4, e3], fun e he => by rw [f5 e he, e4 e he],
    transversal_of_darts h.inv f2 f3, g2, ?_⟩
  · unfold checkFacial
    rw [e1]
    simp only [Option.bind_eq_bind, Option.bind_some]
    have hst : (flagged s.g F (pushed s.g (s.g.M + s.g.holes.length))).stack.length = 2 * s.g.M := hlen
    have hM : (flagged s.g F (pushed s.g (s.g.M + s.g.holes.length))).M = s.g.M := rfl
    rw [hst, hM, if_neg (by simp)]
    simp only [List.length_nil] at f1
    rw [f1]
    simp only [Option.bind_some, Bool.not_true, Bool.false_eq_true, if_false]
    rw [g1]
    rfl
  · rw [g3, List.length_map]
    rfl

section
variable {s : PGraph} {rot : Nat → List Nat} (h : PInv s rot)
include h

omit h in
theorem mem_rootList {v : Nat} : v ∈ rootList s ↔ IsPrimary s v ∧ s.getParent v = some 0 := by
  unfold rootList IsPrimary
  simp only [List.mem_filter, List.mem_range'_1, decide_eq_true_eq]
  constructor
  · rintro ⟨⟨h1, h2⟩, h3⟩
    exact ⟨⟨h1, by omega⟩, by rw [getParent_eq (by omega), h3]⟩
  · rintro ⟨⟨h1, h2⟩, h3⟩
    rw [getParent_eq h2] at h3
    exact ⟨⟨h1, by omega⟩, Option.some.inj h3⟩

/-- At least one root in each component: at least as many roots as components. -/
theorem roots_ge (hr : ∀ u, IsPrimary s u → ∃ r, IsPrimary s r ∧ s.getParent r = some 0 ∧ Joined s.g u r)
    {F C D : List Nat} (hc : Counted s F C D) :
    C.length ≤ (rootList s).length ∧ D.length ≤ (edgedRoots s rot).length := by
  have key : ∀ (l m : List Nat), l.Pairwise (fun a b => ¬ Joined s.g a b) → (∀ x ∈ l, ∃ r ∈ m, Joined s.g x r) →
      l.length ≤ m.length := by
    intro l m hl hm
    have hch : ∀ x, ∃ y, x ∈ l → y ∈ m ∧ Joined s.g x y := by
      intro x
      by_cases hx : x ∈ l
      · obtain ⟨y, h1, h2⟩ := hm x hx
        exact ⟨y, fun _ => ⟨h1, h2⟩⟩
      · exact ⟨0, fun hc => absurd hc hx⟩
    choose f hf using hch
    have hnd : (l.map f).Nodup := by
      rw [List.nodup_iff_pairwise_ne, List.pairwise_map]
      refine hl.imp_of_mem ?_
      intro a b ha hb hab he
      have h1 := (hf a ha).2
      have h2 := (hf b hb).2
      rw [← he] at h2
      exact hab (Joined.trans h1 (joined_symm h.inv h2))
    have := (hnd.subperm (l₂ := m) (fun y hy => by
      obtain ⟨x, hx, rfl⟩ := List.mem_map.1 hy
      exact (hf x hx).1)).length_le
    simpa using this
  constructor
  · refine key _ _ hc.comps.apart fun x hx => ?_
    obtain ⟨r, h1, h2, h3⟩ := hr x (hc.comps.mem x hx)
    exact ⟨r, mem_rootList.2 ⟨h1, h2⟩, h3⟩
  · refine key _ _ hc.edged.apart fun x hx => ?_
    have hx := hc.edged.mem x hx
    obtain ⟨r, h1, h2, h3⟩ := hr x hx.1
    refine ⟨r, ?_, h3⟩
    unfold edgedRoots
    simp only [List.mem_filter, Bool.not_eq_true', List.isEmpty_eq_false_iff]
    refine ⟨mem_rootList.2 ⟨h1, h2⟩, fun hc => ?_⟩
    have := joined_isolated h (joined_symm h.inv h3) hc
    subst this
    exact (adjacent_some h.inv).1 hx.2 hc

/-- Exactly one root in each component: the roots represent the components. -/
theorem roots_counted (hr : ∀ u, IsPrimary s u → ∃ r, IsPrimary s r ∧ s.getParent r = some 0 ∧ Joined s.g u r)
    (hu : ∀ r r', IsPrimary s r → IsPrimary s r' → s.getParent r = some 0 → s.getParent r' = some 0 → Joined s.g r r' →
      r = r') {F : List Nat} (hF : Transversal (Live s.g) (SameFace s.g) F) :
    Counted s F (rootList s) (edgedRoots s rot) := by
  have hap : (rootList s).Pairwise fun a b => ¬ Joined s.g a b := by
    have hn : (rootList s).Nodup := List.Nodup.filter _ List.nodup_range'
    rw [List.nodup_iff_pairwise_ne] at hn
    refine hn.imp_of_mem ?_
    intro a b ha hb hab hj
    have ha := mem_rootList.1 ha
    have hb := mem_rootList.1 hb
    exact hab (hu a b ha.1 hb.1 ha.2 hb.2 hj)
  refine ⟨hF, ⟨fun x hx => (mem_rootList.1 hx).1, hap, ?_⟩, ⟨?_, List.Pairwise.filter _ hap, ?_⟩⟩
  · intro x hx
    obtain ⟨r, h1, h2, h3⟩ := hr x hx
    exact ⟨r, mem_rootList.2 ⟨h1, h2⟩, joined_symm h.inv h3⟩
  · intro x hx
    unfold edgedRoots at hx
    simp only [List.mem_filter, Bool.not_eq_true', List.isEmpty_eq_false_iff] at hx
    exact ⟨(mem_rootList.1 hx.1).1, (adjacent_some h.inv).2 hx.2⟩
  · rintro x ⟨hx, hne⟩
    obtain ⟨r, h1, h2, h3⟩ := hr x hx
    refine ⟨r, ?_, joined_symm h.inv h3⟩
    unfold edgedRoots
    simp only [List.mem_filter, Bool.not_eq_true', List.isEmpty_eq_false_iff]
    refine ⟨mem_rootList.2 ⟨h1, h2⟩, fun hc => ?_⟩
    have := joined_isolated h (joined_symm h.inv h3) hc
    subst this
    exact (adjacent_some h.inv).1 hne hc

/-- There are representatives of the components. -/
theorem exists_transversal (p : Nat → Prop) (hp : ∀ v, p v → v ≤ s.g.N) :
    ∃ l, Transversal p (Joined s.g) l := by
  classical
  have key : ∀ k, ∃ l, Transversal (fun v => p v ∧ v < k) (Joined s.g) l := by
    intro k
    induction k with
    | zero => exact ⟨[], by simp, List.Pairwise.nil, fun x hx => absurd hx.2 (by omega)⟩
    | succ k ih =>
      obtain ⟨l, hl⟩ := ih
      by_cases hk : p k ∧ ∀ a ∈ l, ¬ Joined s.g a k
      · refine ⟨k :: l, ?_, List.pairwise_cons.2 ⟨fun b hb hj => hk.2 b hb (joined_symm h.inv hj), hl.apart⟩, ?_⟩
        · intro x hx
          rcases List.mem_cons.1 hx with rfl | hx
          · exact ⟨hk.1, by omega⟩
          · have := hl.mem x hx; exact ⟨this.1, by omega⟩
        · rintro x ⟨hx, hlt⟩
          rcases Nat.lt_or_ge x k with h1 | h1
          · obtain ⟨a, ha, hj⟩ := hl.all x ⟨hx, h1⟩
            exact ⟨a, by simp [ha], hj⟩
          · have : x = k := by omega
            subst this
            exact ⟨x, by simp, .refl _⟩
      · refine ⟨l, fun x hx => ⟨(hl.mem x hx).1, by have := (hl.mem x hx).2; omega⟩, hl.apart, ?_⟩
        rintro x ⟨hx, hlt⟩
        rcases Nat.lt_or_ge x k with h1 | h1
        · exact hl.all x ⟨hx, h1⟩
        · have : x = k := by omega
          subst this
          push Not at hk
          exact hk hx
  obtain ⟨l, hl⟩ := key (s.g.N + 1)
  refine ⟨l, fun x hx => (hl.mem x hx).1, hl.apart, fun x hx => hl.all x ⟨hx, by have := hp x hx; omega⟩⟩

end

end Test
end Verif
