import Verif.Random.Move
import Verif.Random.Lemmas
import Verif.Embed.IsoFrame

/-
What `gp_CreateRandomGraphEx` keeps in its planar phase and after it: the adjacency lists stay consistent, edges stay, and
no bits other than the type and the visited mark of an edge are set.
-/
namespace Verif.Random
open Verif Verif.Graph Verif.Props Verif.Isolate

/-- An arc from `a` to `b`. -/
def Arc (g : Graph) (rot : Nat → List Nat) (a b : Nat) : Prop := ∃ e ∈ rot a, (g.E e).nbr = b

/-- A consistent graph with nothing but marks in the flags of its edges. -/
structure Fit (g : Graph) (rot : Nat → List Nat) : Prop where
  inv : Inv g rot
  low : ∀ e, (g.E e).flags < 16

/-- `g'` comes from `g` by adding edges, moving arcs and setting marks. -/
structure Grew (g : Graph) (rot : Nat → List Nat) (g' : Graph) (rot' : Nat → List Nat) : Prop where
  fit : Fit g' rot'
  N : g'.N = g.N
  cap : g'.arcCap = g.arcCap
  M : g.M ≤ g'.M
  arc : ∀ a b, Arc g rot a b → Arc g' rot' a b

/-- The result is such a graph for some lists. -/
def Grows (g : Graph) (rot : Nat → List Nat) (g' : Graph) : Prop := ∃ rot', Grew g rot g' rot'

variable {g g' g'' : Graph} {rot rot' rot'' : Nat → List Nat}

theorem Grew.refl (h : Fit g rot) : Grew g rot g rot := ⟨h, rfl, rfl, le_rfl, fun _ _ h => h⟩
theorem Grew.trans (h : Grew g rot g' rot') (h' : Grew g' rot' g'' rot'') : Grew g rot g'' rot'' :=
  ⟨h'.fit, h'.N.trans h.N, h'.cap.trans h.cap, h.M.trans h'.M, fun a b hh => h'.arc a b (h.arc a b hh)⟩
theorem Grew.grows (h : Grew g rot g' rot') (h' : Grows g' rot' g'') : Grows g rot g'' := by
  obtain ⟨r, h'⟩ := h'
  exact ⟨r, h.trans h'⟩
theorem Grows.refl (h : Fit g rot) : Grows g rot g := ⟨rot, .refl h⟩

theorem Fit.zero (h : Fit g rot) : g.E 0 = {} := h.inv.zero 0 fun v => h.inv.links.zero_not_mem v

/-- Changing the marks of one arc. -/
theorem Fit.mark (h : Fit g rot) {e n : Nat} (hn : n < 16) (he : (∃ v, e ∈ rot v) ∨ n = (g.E e).flags) (hs : e < g.eSize) :
    ∃ g', g.wrE e { g.E e with flags := n } = some g' ∧ Grew g rot g' rot ∧ g'.M = g.M ∧ (∀ a, (g'.E a).nbr = (g.E a).nbr) ∧
      ∀ a, (g'.E a).flags = if a = e then n else (g.E a).flags := by
  refine ⟨{ g with E := Function.update g.E e { g.E e with flags := n } }, by simp [wrE, hs], ?_, rfl, ?_, ?_⟩
  · have hb : ∀ a, (({ g with E := Function.update g.E e { g.E e with flags := n } } : Graph).E a).nbr = (g.E a).nbr := by
      intro a
      by_cases ha : a = e
      · subst ha; simp
      · simp [ha]
    refine ⟨⟨h.inv.congr rfl rfl rfl rfl rfl (fun _ _ => rfl) ?_ hb ?_, ?_⟩, rfl, rfl, le_rfl, ?_⟩
    · intro a b
      by_cases ha : a = e
      · subst ha; simp; cases b <;> rfl
      · simp [ha]
    · intro a ha
      by_cases hae : a = e
      · subst hae
        rcases he with ⟨v, hv⟩ | he
        · exact absurd hv (ha v)
        · simp [he]
      · simp [hae]
    · intro a
      by_cases ha : a = e
      · subst ha; simpa using hn
      · simpa [ha] using h.low a
    · rintro a b ⟨x, hx, hb'⟩
      exact ⟨x, hx, (hb x).trans hb'⟩
  · intro a
    by_cases ha : a = e
    · subst ha; simp
    · simp [ha]
  · intro a
    by_cases ha : a = e
    · subst ha; simp
    · simp [ha]

theorem or_low {a b : Nat} (ha : a < 16) (hb : b < 16) : a ||| b < 16 := Nat.or_lt_two_pow (n := 4) ha hb

/-- A change of the marks of one arc that only sets or clears marks. -/
def Marks (f : Graph → Nat → Option Graph) (n : Nat → Nat) : Prop :=
  ∀ g e, e < g.eSize → f g e = g.wrE e { g.E e with flags := n (g.E e).flags }

theorem marks_setVisited : Marks setEdgeVisited (· ||| 1) := fun g e he => by simp [setEdgeVisited, rdE, he]
theorem marks_clearVisited : Marks clearEdgeVisited fun n => n - (n &&& 1) := fun g e he => by simp [clearEdgeVisited, rdE, he]
theorem marks_clearType : Marks clearEdgeType fun n => n - (n &&& 14) := fun g e he => by simp [clearEdgeType, rdE, he]
theorem marks_setType (t : Nat) : Marks (fun g e => g.setType e t) (· ||| t) := fun g e he => by simp [Graph.setType, rdE, he]

theorem Fit.marks (h : Fit g rot) {f : Graph → Nat → Option Graph} {n : Nat → Nat} (hf : Marks f n) {e : Nat}
    (hn : n (g.E e).flags < 16) (he : (∃ v, e ∈ rot v) ∨ n (g.E e).flags = (g.E e).flags) (hs : e < g.eSize) :
    ∃ g', f g e = some g' ∧ Grew g rot g' rot ∧ g'.M = g.M ∧ (∀ a, (g'.E a).nbr = (g.E a).nbr) ∧
      ∀ a, (g'.E a).flags = if a = e then n (g.E e).flags else (g.E a).flags := by
  rw [hf g e hs]
  exact h.mark hn he hs

/-- Moving an arc to the end. -/
theorem Fit.move (h : Fit g rot) {v e : Nat} (he : e ∈ rot v) :
    ∃ g', moveArcToLast g v e = some g' ∧ ∃ rot', Grew g rot g' rot' ∧ g'.M = g.M ∧ (∀ w a, a ∈ rot' w ↔ a ∈ rot w) ∧
      (∀ a, (g'.E a).nbr = (g.E a).nbr) ∧ (∀ a, (g'.E a).flags = (g.E a).flags) ∧
      (∀ w, (rot' w).Perm (rot w)) := by
  obtain ⟨g', h1, h2, h3⟩ := move_spec h.inv he
  have hp : ∀ w, (Function.update rot v (without e (rot v) ++ [e]) w).Perm (rot w) := by
    intro w
    by_cases hw : w = v
    · subst hw
      rw [Function.update_self]
      refine (List.perm_append_comm).trans ?_
      rw [List.singleton_append]
      unfold without
      have : (List.filter (fun x => decide (x ≠ e)) (rot w)) = (rot w).erase e := by
        rw [(h.inv.links.nodup w).erase_eq_filter]
        congr 1
        funext x
        by_cases hx : x = e <;> simp [hx]
      rw [this]
      exact (List.perm_cons_erase he).symm
    · rw [Function.update_of_ne hw]
  have hm : ∀ w a, a ∈ Function.update rot v (without e (rot v) ++ [e]) w ↔ a ∈ rot w := fun w a => (hp w).mem_iff
  refine ⟨g', h1, _, ⟨⟨h2, fun a => by rw [h3.eflags]; exact h.low a⟩, h3.N, h3.arcCap, le_of_eq h3.M.symm, ?_⟩, h3.M, hm, h3.nbr, h3.eflags, hp⟩
  rintro a b ⟨x, hx, hb⟩
  exact ⟨x, (hm a x).2 hx, (h3.nbr x).trans hb⟩

/-- `gp_AddEdge` on any arguments adds the edge or leaves the graph alone. -/
theorem Fit.add (h : Fit g rot) (u v : Int) {ul vl : Nat} (h1 : ul ≤ 1) (h2 : vl ≤ 1) :
    ∃ g' r, g.addEdge u ul v vl = some (g', r) ∧ (∃ rot', Grew g rot g' rot' ∧ (r = .ok → Arc g' rot' u.toNat v.toNat)) ∧
      (r = .ok → g'.M = g.M + 1 ∧ 1 ≤ u ∧ 1 ≤ v) := by
  obtain ⟨bu, hbu⟩ := linkOf_le h1
  obtain ⟨bv, hbv⟩ := linkOf_le h2
  by_cases hok : (g.vertexOk u && g.vertexOk v) = true
  · rw [Bool.and_eq_true] at hok
    by_cases hM : g.M < g.arcCap / 2
    · have hu := vertexOk_iff.1 hok.1
      have hv := vertexOk_iff.1 hok.2
      obtain ⟨g', hg', hI, hM', hN, hA, -, -, -, -, -, hnb, hfl, -, -⟩ := putEdge_spec h.inv hM bu bv ⟨hu.1, hu.2.1⟩ ⟨hv.1, hv.2.1⟩
        (.inl rfl) (.inl rfl)
      have hx := takeSlot_spec h.inv hM
      refine ⟨g', .ok, by rw [addEdge_spec hok.1 hok.2 hM hbu hbv, hg'], ⟨_, ⟨⟨hI, fun e => by rw [hfl]; exact h.low e⟩, hN, hA, by omega, ?_⟩, fun _ => ?_⟩,
        fun _ => ⟨hM', hu.2.2, hv.2.2⟩⟩
      rotate_left
      · refine ⟨twin g.takeSlot.1, (mem_placeRot (.inl rfl) (.inl rfl)).2 (.inl ⟨rfl, rfl⟩), ?_⟩
        rw [hnb, if_neg (twin_ne _), if_pos rfl]
      rintro a b ⟨e, he, hb⟩
      refine ⟨e, (mem_placeRot (.inl rfl) (.inl rfl)).2 (.inr (.inr he)), ?_⟩
      rw [hnb, if_neg, if_neg, hb]
      · rintro rfl; exact hx.2.2.2.2.1 _ he
      · rintro rfl; exact hx.2.2.2.1 _ he
    · refine ⟨g, .nonembeddable, ?_, ⟨rot, .refl h, fun hc => by cases hc⟩, fun hc => by cases hc⟩
      simp [addEdge, hok, Nat.not_lt.1 hM]
  · refine ⟨g, .notok, ?_, ⟨rot, .refl h, fun hc => by cases hc⟩, fun hc => by cases hc⟩
    rw [Bool.not_eq_true] at hok
    simp [addEdge, hok]

theorem Fit.add_ens (h : Fit g rot) (u v : Int) {ul vl : Nat} (h1 : ul ≤ 1) (h2 : vl ≤ 1) :
    Ens (g.addEdge u ul v vl) fun r => Grows g rot r.1 := by
  obtain ⟨g', r, e, ⟨rot', hg, -⟩, -⟩ := h.add u v h1 h2
  rw [e]; exact Ens.some ⟨rot', hg⟩

/-- `_getUnprocessedChild` is defined for every vertex and keeps the graph. -/
theorem child_total {s : PGraph} (h : Fit s.g rot) (hN : ∀ x, 1 ≤ x → s.g.N < x → rot x = []) {p : Nat} (hp : 1 ≤ p ∧ p ≤ s.g.N) :
    ∃ t c, unprocessedChild s p = some (t, c) ∧ ∃ rot', Grew s.g rot t.g rot' ∧ t.g.M = s.g.M ∧
      (∀ w, (rot' w).Perm (rot w)) ∧ ∀ a, (t.g.E a).nbr = (s.g.E a).nbr := by
  have hpv : p < s.g.vSize := by unfold vSize; omega
  have ha : s.g.getArc p false = some ((rot p).headD 0) := by
    simp only [getArc, rdV, hpv, if_true, Option.bind_eq_bind, Option.bind_some]
    rw [h.inv.links.vlink p false hpv]; rfl
  have hlt : (rot p).headD 0 < s.g.eSize := by
    cases hr : rot p with
    | nil => simp [eSize]
    | cons e l => simpa using (h.inv.links.arc p e (by rw [hr]; simp)).2
  unfold unprocessedChild
  rw [ha]
  generalize he : (rot p).headD 0 = e at *
  simp only [Option.bind_eq_bind, Option.bind_some, getNbr, Graph.getType, rdE, hlt, if_true]
  by_cases ht : (s.g.E e).flags &&& 14 = 0
  · simp only [ht]
    exact ⟨s, 0, rfl, rot, .refl h, rfl, fun _ => .refl _, fun _ => rfl⟩
  by_cases hv : (s.g.E e).flags &&& 1 ≠ 0
  · simp only [Option.pure_def, Option.bind_some, ht, if_false, hv, if_true, ne_eq, not_false_eq_true]
    exact ⟨s, 0, rfl, rot, .refl h, rfl, fun _ => .refl _, fun _ => rfl⟩
  simp only [Option.pure_def, Option.bind_some, ht, if_false, hv]
  have hmem : e ∈ rot p := by
    cases hr : rot p with
    | nil =>
      rw [hr] at he
      have he : 0 = e := he
      rw [← he, h.zero] at ht
      exact absurd rfl ht
    | cons a l =>
      rw [hr] at he
      have he : a = e := he
      simp [he]
  have htm := h.inv.twins p e hmem
  have hes : s.g.eSize % 2 = 0 := by have := h.inv.even; unfold eSize; omega
  obtain ⟨g1, e1, k1, M1, n1, f1⟩ := h.marks marks_setVisited (e := e) (or_low (h.low e) (by omega)) (.inl ⟨p, hmem⟩) hlt
  rw [e1]
  have hs1 : g1.eSize = s.g.eSize := by unfold eSize; rw [k1.cap]
  obtain ⟨g2, e2, k2, M2, n2, f2⟩ := k1.fit.marks marks_setVisited (e := twin e) (or_low (k1.fit.low _) (by omega)) (.inl ⟨_, htm⟩)
    (by rw [hs1]; exact twin_lt hlt hes)
  simp only [Option.bind_some]
  rw [e2]
  obtain ⟨g3, e3, r3, k3, M3, m3, n3, f3, p3⟩ := k2.fit.move hmem
  simp only [Option.bind_some]
  rw [e3]
  obtain ⟨g4, e4, r4, k4, M4, m4, n4, f4, p4⟩ := k3.fit.move (v := (s.g.E e).nbr) (e := twin e) ((m3 _ _).2 htm)
  simp only [Option.bind_some]
  rw [e4]
  have hc : (s.g.E e).nbr ≤ s.g.N := by
    by_contra hc
    have := hN (s.g.E e).nbr (h.inv.links.vert _ _ htm).1 (by omega)
    rw [this] at htm; cases htm
  have kk := ((k1.trans k2).trans k3).trans k4
  have hVI : (s.g.E e).nbr < 1 + (s.setG g4).g.N := by
    show _ < 1 + g4.N
    rw [kk.N]; omega
  simp only [Option.bind_some, PGraph.setParent, PGraph.rdVI, PGraph.wrVI, hVI, if_true, Option.bind_eq_bind]
  exact ⟨_, _, rfl, r4, kk, M4.trans (M3.trans (M2.trans M1)), fun w => (p4 w).trans (p3 w), fun a => by
    rw [show ∀ x, ((PGraph.setG s g4).g.E x) = g4.E x from fun _ => rfl, n4, n3, n2, n1]⟩

/-- It keeps the graph whatever the vertex. -/
theorem child_ens {s : PGraph} (h : Fit s.g rot) (p : Nat) : Ens (unprocessedChild s p) fun r => Grows s.g rot r.1.g := by
  unfold unprocessedChild
  refine Ens.bind (getArc_val p false) fun e he => Ens.bind (getNbr_val e) fun child hc => ?_
  refine Ens.skip fun t ht => Ens.skip fun r hr => Ens.ite (fun _ => Ens.pure (.refl h)) fun ht0 => Ens.ite (fun _ => Ens.pure (.refl h)) fun _ => ?_
  obtain ⟨hp, he⟩ := he
  rw [h.inv.links.vlink p false hp] at he
  have hlt : e < s.g.eSize := by
    unfold rdE at hr
    split at hr
    · assumption
    · cases hr
  have htt : t = (s.g.E e).flags &&& 14 := by
    simp only [Graph.getType, rdE, hlt, if_true, Option.bind_eq_bind, Option.bind_some, Option.pure_def, Option.some.injEq] at ht
    exact ht.symm
  have hmem : e ∈ rot p := by
    cases hr : rot p with
    | nil =>
      rw [hr] at he
      have he : e = 0 := he
      rw [he, h.zero] at htt
      exact absurd htt ht0
    | cons a l =>
      rw [hr] at he
      have he : e = a := he
      simp [he]
  have htm := h.inv.twins p e hmem
  have hes : s.g.eSize % 2 = 0 := by have := h.inv.even; unfold eSize; omega
  obtain ⟨g1, e1, k1, M1, n1, f1⟩ := h.marks marks_setVisited (e := e) (or_low (h.low e) (by omega)) (.inl ⟨p, hmem⟩) hlt
  rw [e1]
  have hs1 : g1.eSize = s.g.eSize := by unfold eSize; rw [k1.cap]
  obtain ⟨g2, e2, k2, M2, n2, f2⟩ := k1.fit.marks marks_setVisited (e := twin e) (or_low (k1.fit.low _) (by omega)) (.inl ⟨_, htm⟩)
    (by rw [hs1]; exact twin_lt hlt hes)
  simp only [Option.bind_eq_bind, Option.bind_some]
  rw [e2]
  obtain ⟨g3, e3, r3, k3, M3, m3, n3, f3, p3⟩ := k2.fit.move hmem
  simp only [Option.bind_some]
  rw [e3]
  subst hc
  obtain ⟨g4, e4, r4, k4, M4, m4, n4, f4, p4⟩ := k3.fit.move (v := (s.g.E e).nbr) (e := twin e) ((m3 _ _).2 htm)
  simp only [Option.bind_some]
  rw [e4]
  have kk := ((k1.trans k2).trans k3).trans k4
  refine Ens.bind (P := fun t : PGraph => t.g = g4) ?_ fun t ht => Ens.pure ?_
  · show Ens ((s.setG g4).setParent _ _) _
    unfold PGraph.setParent PGraph.wrVI
    exact Ens.skip fun _ _ => Ens.ite (fun _ => Ens.some rfl) fun _ => Ens.none
  · show Grows s.g rot t.g
    rw [ht]; exact ⟨_, kk⟩

/-- An addition in the loop. -/
theorem addLast_ens {s : PGraph} (h : Fit s.g rot) (c : Bool) (u v : Nat) : Ens (addLast s c u v) fun r => Grows s.g rot r.1.g := by
  unfold addLast
  refine Ens.ite (fun _ => Ens.bind (h.add_ens u v (by omega) (by omega)) fun ⟨g', r⟩ hg => Ens.pure hg) fun _ => Ens.some (.refl h)

theorem climb_ens (root last : Nat) {g0 : Graph} {rot0 : Nat → List Nat} : ∀ (fuel : Nat) (s : PGraph) (v p c : Nat), Grows g0 rot0 s.g →
    Ens (climb root last fuel s v p c) fun r => Grows g0 rot0 r.1.g
  | 0, _, _, _, _, _ => Ens.none
  | fuel + 1, s, v, p, c, ⟨rot, h⟩ => by
    unfold climb
    refine Ens.ite (fun _ => Ens.some ⟨rot, h⟩) fun _ => Ens.bind (child_ens h.fit p) fun ⟨s1, c1⟩ h1 => ?_
    have h1 := h.grows h1
    refine Ens.ite (fun _ => Ens.some h1) fun _ => Ens.skip fun p1 _ => ?_
    obtain ⟨rot1, k1⟩ := h1
    refine Ens.bind (addLast_ens k1.fit _ _ _) fun ⟨s2, f2⟩ h2 => ?_
    have h2 := k1.grows h2
    exact Ens.ite (fun _ => Ens.some h2) fun _ => climb_ens root last fuel s2 _ _ _ h2

/-- Two additions. -/
theorem add2_ens {g0 : Graph} {rot0 : Nat → List Nat} {s : PGraph} (h : Grows g0 rot0 s.g) (b b' : Bool) (x y x' y' v l v' l' w k : Nat) :
    Ens (do
      let (s, fail) ← addLast s b x y
      if fail then some (s, v, l, true)
      else do
        let (s, fail) ← addLast s b' x' y'
        if fail then some (s, v', l', true) else some (s, w, k, false)) fun r => Grows g0 rot0 r.1.g := by
  obtain ⟨rot, h⟩ := h
  refine Ens.bind (addLast_ens h.fit _ _ _) fun ⟨s1, f1⟩ h1 => ?_
  have h1 := h.grows h1
  refine Ens.ite (fun _ => Ens.some h1) fun _ => ?_
  obtain ⟨rot1, k1⟩ := h1
  refine Ens.bind (addLast_ens k1.fit _ _ _) fun ⟨s2, f2⟩ h2 => ?_
  have h2 := k1.grows h2
  exact Ens.ite (fun _ => Ens.some h2) fun _ => Ens.some h2

theorem afterClimb_ens {g0 : Graph} {rot0 : Nat → List Nat} {s : PGraph} (h : Grows g0 rot0 s.g) (root v p c last : Nat) :
    Ens (afterClimb root s v p c last) fun r => Grows g0 rot0 r.1.g := by
  unfold afterClimb
  exact Ens.ite (fun _ => Ens.some h) fun _ => Ens.ite (fun _ => add2_ens h _ _ _ _ _ _ _ _ _ _ _ _) fun _ => add2_ens h _ _ _ _ _ _ _ _ _ _ _ _

theorem planarBody_ens {g0 : Graph} {rot0 : Nat → List Nat} {s : PGraph} (h : Grows g0 rot0 s.g) (root v last : Nat) :
    Ens (planarBody root s v last) fun r => Grows g0 rot0 r.1.g := by
  obtain ⟨rot, h⟩ := h
  unfold planarBody
  refine Ens.bind (child_ens h.fit v) fun ⟨s1, c1⟩ h1 => ?_
  have h1 := h.grows h1
  refine Ens.ite (fun _ => add2_ens h1 _ _ _ _ _ _ _ _ _ _ _ _) fun _ => Ens.skip fun p _ => ?_
  refine Ens.bind (climb_ens root last _ s1 _ _ _ h1) fun ⟨s2, v2, p2, c2, f2⟩ h2 => ?_
  exact Ens.ite (fun _ => Ens.some h2) fun _ => afterClimb_ens h2 _ _ _ _ _

theorem planarLoop_ens (root : Nat) (M : Int) {g0 : Graph} {rot0 : Nat → List Nat} : ∀ (fuel : Nat) (s : PGraph) (v last : Nat),
    Grows g0 rot0 s.g → Ens (planarLoop root M fuel s v last) fun r => Grows g0 rot0 r.1.g
  | 0, _, _, _, _ => Ens.none
  | fuel + 1, s, v, last, h => by
    unfold planarLoop
    refine Ens.ite (fun _ => Ens.bind (planarBody_ens h root v last) fun ⟨s1, v1, l1, f1⟩ h1 => ?_) fun _ => Ens.some h
    exact Ens.ite (fun _ => Ens.some h1) fun _ => planarLoop_ens root M fuel s1 _ _ h1

theorem planarPhase_ens {s : PGraph} (h : Fit s.g rot) (n : Int) : Ens (planarPhase n s) fun r => Grows s.g rot r.1.g := by
  unfold planarPhase
  exact Ens.skip fun b _ => Ens.bind (child_ens h 1) fun ⟨s1, v⟩ h1 => planarLoop_ens 1 _ _ _ _ _ h1

theorem extraEx_ens (rnd : Nat → Nat) (n : Int) {g0 : Graph} {rot0 : Nat → List Nat} : ∀ (fuel i : Nat) (g : Graph), Grows g0 rot0 g →
    Ens (extraEx rnd n fuel i g) fun r => Grows g0 rot0 r.1 ∧ (r.2 = some .ok → n ≤ r.1.M ∧ ((r.1.M : Int) = n ∨ r.1 = g))
  | 0, i, g, h => by
    unfold extraEx
    exact Ens.ite (fun _ => Ens.some ⟨h, fun hc => by cases hc⟩) fun hc => Ens.some ⟨h, fun _ => ⟨Int.not_lt.1 hc, .inr rfl⟩⟩
  | fuel + 1, i, g, h => by
    unfold extraEx
    refine Ens.ite (fun hlt => Ens.skip fun u _ => Ens.skip fun v _ => ?_) fun hc => Ens.some ⟨h, fun _ => ⟨Int.not_lt.1 hc, .inr rfl⟩⟩
    have ha : Ens (attemptEx g u v) fun r => Grows g0 rot0 r.1 ∧ (r.2 = none ∧ (r.1 = g ∨ r.1.M = g.M + 1) ∨ r.2 = some .notok) := by
      unfold attemptEx
      suffices key : ∀ b : Bool, Ens (if b = true then pure (g, none) else do
          let (g, r) ← g.addEdge u 0 v 0
          if r ≠ .ok then pure (g, some Res.notok) else pure (g, none)) fun r => Grows g0 rot0 r.1 ∧
            (r.2 = none ∧ (r.1 = g ∨ r.1.M = g.M + 1) ∨ r.2 = some .notok) from
        Ens.ite (fun _ => Ens.skip fun b _ => key b) fun _ => Ens.skip fun b _ => key b
      intro b
      refine Ens.ite (fun _ => Ens.pure ⟨h, .inl ⟨rfl, .inl rfl⟩⟩) fun _ => ?_
      obtain ⟨rot, h⟩ := h
      obtain ⟨g', r, e, ⟨rot', hg, -⟩, hM⟩ := h.fit.add u v (ul := 0) (vl := 0) (by omega) (by omega)
      rw [e]
      have hG : Grows g0 rot0 g' := ⟨rot', h.trans hg⟩
      refine Ens.bind (Ens.some (P := fun x => x = (g', r)) rfl) ?_
      rintro _ rfl
      refine Ens.ite (fun _ => Ens.pure ⟨hG, .inr rfl⟩) fun hr => Ens.pure ⟨hG, .inl ⟨rfl, .inr (hM ?_).1⟩⟩
      simpa using hr
    refine Ens.bind ha fun ⟨g1, r1⟩ ⟨h1, h2⟩ => ?_
    rcases h2 with ⟨hr, h2⟩ | hr
    · obtain rfl : r1 = none := hr
      refine (extraEx_ens rnd n fuel (i + 2) g1 h1).mono fun r hh => ⟨hh.1, fun ho => ⟨(hh.2 ho).1, .inl ?_⟩⟩
      have hge := (hh.2 ho).1
      rcases (hh.2 ho).2 with h | h
      · exact h
      · rw [h] at hge ⊢
        rcases h2 with h2 | h2
        · have h2 : g1 = g := h2
          rw [h2] at hge; omega
        · have h2 : g1.M = g.M + 1 := h2
          omega
    · obtain rfl : r1 = some .notok := hr
      exact Ens.some ⟨h1, fun hc => by cases hc⟩

/-- Counting loops. -/
theorem foldlM_range {α : Type} {f : α → Nat → Option α} {P : Nat → α → Prop} {a : α} (h0 : P 0 a) : ∀ (n : Nat),
    (∀ k a, k < n → P k a → ∃ a', f a k = some a' ∧ P (k + 1) a') → ∃ a', (List.range n).foldlM f a = some a' ∧ P n a'
  | 0, _ => ⟨a, rfl, h0⟩
  | n + 1, h => by
    obtain ⟨a1, e1, h1⟩ := foldlM_range h0 n fun k a hk => h k a (by omega)
    obtain ⟨a2, e2, h2⟩ := h n a1 (by omega) h1
    refine ⟨a2, ?_, h2⟩
    rw [List.range_succ, List.foldlM_append, e1]
    simp [e2]

theorem cleared : ∀ n < 16, n - (n &&& 14) - ((n - (n &&& 14)) &&& 1) = 0 ∧ n - (n &&& 14) < 16 := by decide

/-- The clean-up is defined, leaves the graph and clears all marks. -/
theorem cleanUp_total {s : PGraph} (h : Fit s.g rot) : ∃ t, cleanUp s = some t ∧ Grew s.g rot t.g rot ∧ t.g.M = s.g.M ∧
    (∀ a, (t.g.E a).nbr = (s.g.E a).nbr) ∧ (∀ e, (t.g.E e).flags = 0) ∧ ∀ v, 1 ≤ v → v ≤ s.g.N → (t.VI v).parent = 0 := by
  have step : ∀ k g, k < s.g.inUse → (Grew s.g rot g rot ∧ g.M = s.g.M ∧ (∀ a, (g.E a).nbr = (s.g.E a).nbr) ∧ ∀ e, e < k → (g.E e).flags = 0) →
      ∃ g', (do clearEdgeVisited (← clearEdgeType g k) k) = some g' ∧
        (Grew s.g rot g' rot ∧ g'.M = s.g.M ∧ (∀ a, (g'.E a).nbr = (s.g.E a).nbr) ∧ ∀ e, e < k + 1 → (g'.E e).flags = 0) := by
    rintro k g hk ⟨hg, hM, hn, hf⟩
    have hks : k < g.eSize := by
      have := h.inv.inUse_le
      have : g.eSize = s.g.eSize := by unfold eSize; rw [hg.cap]
      omega
    have hin : (∃ v, k ∈ rot v) ∨ (g.E k).flags = 0 := by
      by_cases hh : ∃ v, k ∈ rot v
      · exact .inl hh
      · right
        rw [hg.fit.inv.zero k fun v hv => hh ⟨v, hv⟩]
    obtain ⟨g1, e1, k1, M1, n1, f1⟩ := hg.fit.marks marks_clearType (e := k) (cleared _ (hg.fit.low k)).2
      (hin.imp_right fun hh => by simp [hh]) hks
    have hs1 : g1.eSize = g.eSize := by unfold eSize; rw [k1.cap]
    have fk : (g1.E k).flags = (g.E k).flags - ((g.E k).flags &&& 14) := by rw [f1, if_pos rfl]
    obtain ⟨g2, e2, k2, M2, n2, f2⟩ := k1.fit.marks marks_clearVisited (e := k)
      (by rw [fk, (cleared _ (hg.fit.low k)).1]; omega) (hin.imp_right fun hh => by simp [fk, hh]) (by rw [hs1]; exact hks)
    refine ⟨g2, by rw [e1]; exact e2, (hg.trans k1).trans k2, M2.trans (M1.trans hM), fun a => (n2 a).trans ((n1 a).trans (hn a)), ?_⟩
    intro e he
    rw [f2]
    split
    · rw [fk]; exact (cleared _ (hg.fit.low k)).1
    · rw [f1, if_neg (by assumption)]
      exact hf e (by omega)
  obtain ⟨g1, e1, k1, M1, n1, f1⟩ := foldlM_range (P := fun k g => Grew s.g rot g rot ∧ g.M = s.g.M ∧ (∀ a, (g.E a).nbr = (s.g.E a).nbr) ∧
    ∀ e, e < k → (g.E e).flags = 0) ⟨.refl h, rfl, fun _ => rfl, fun _ hc => by omega⟩ s.g.inUse step
  obtain ⟨t, e2, h2, h3⟩ := foldlM_range (f := fun (s : PGraph) i => s.setParent (i + 1) 0) (P := fun k (t : PGraph) => t.g = g1 ∧
    ∀ v, 1 ≤ v → v ≤ k → (t.VI v).parent = 0) (a := s.setG g1) ⟨rfl, fun v _ _ => by omega⟩ g1.N (by
      rintro k t hk ⟨rfl, ht⟩
      have hb : k + 1 < 1 + t.g.N := by omega
      refine ⟨{ t with VI := Function.update t.VI (k + 1) { t.VI (k + 1) with parent := 0 } },
        by simp [PGraph.setParent, PGraph.rdVI, PGraph.wrVI, hb], rfl, ?_⟩
      intro v h1 h2
      by_cases hv : v = k + 1
      · subst hv; simp
      · simp only [Function.update_of_ne hv]
        exact ht v h1 (by omega))
  refine ⟨t, ?_, ?_, ?_, ?_, ?_, ?_⟩
  · unfold cleanUp
    rw [e1]
    exact e2
  · rw [h2]; exact k1
  · rw [h2]; exact M1
  · rw [h2]; exact n1
  · intro e
    rw [h2]
    by_cases he : e < s.g.inUse
    · exact f1 e he
    · rw [k1.fit.inv.zero e fun v hv => ?_]
      have := h.inv.below v e hv
      omega
  · intro v h1 h4
    exact h3 v h1 (by rw [k1.N]; exact h4)

/-- The tree before vertex `v` is added. -/
structure Tree (N cap v : Nat) (g : Graph) (rot : Nat → List Nat) : Prop where
  fit : Fit g rot
  N : g.N = N
  cap : g.arcCap = cap
  M : g.M = v - 2
  rest : ∀ w, v ≤ w → rot w = []
  nodup : ∀ w, ((rot w).map fun e => (g.E e).nbr).Nodup
  arc : ∀ a b, Arc g rot a b → a ≠ b ∧ 1 ≤ b ∧ b < v
  joined : ∀ w, 1 ≤ w → w < v → Relation.ReflTransGen (Arc g rot) 1 w

theorem tree_init (N cap : Nat) (hc : cap % 2 = 0) : Tree N cap 2 (Graph.init N cap) fun _ => [] := by
  refine ⟨⟨Inv.init N cap hc, fun e => ?_⟩, rfl, rfl, rfl, fun _ _ => rfl, fun _ => List.nodup_nil, ?_, ?_⟩
  · show 0 < 16
    omega
  · rintro a b ⟨e, he, -⟩; cases he
  · intro w h1 h2
    obtain rfl : w = 1 := by omega
    exact .refl

/-- The same graph with other marks. -/
theorem Tree.same {N cap v : Nat} (h : Tree N cap v g rot) (hg : Grew g rot g' rot) (hM : g'.M = g.M) (hn : ∀ a, (g'.E a).nbr = (g.E a).nbr) :
    Tree N cap v g' rot := by
  have ha : ∀ a b, Arc g' rot a b ↔ Arc g rot a b := fun a b => by unfold Arc; simp only [hn]
  refine ⟨hg.fit, hg.N.trans h.N, hg.cap.trans h.cap, hM.trans h.M, h.rest, fun w => by simp only [hn]; exact h.nodup w,
    fun a b hab => h.arc a b ((ha a b).1 hab), fun w h1 h2 => ?_⟩
  have : Arc g' rot = Arc g rot := by funext a b; exact propext (ha a b)
  rw [this]; exact h.joined w h1 h2

/-- One tree edge. -/
theorem Tree.add {N cap v u : Nat} (h : Tree N cap v g rot) (h2 : 2 ≤ v) (hv : v ≤ N) (hu : 1 ≤ u ∧ u < v) (hM : v - 2 < cap / 2) :
    ∃ g' rot', treeEdge g u v = some (g', .ok) ∧ Tree N cap (v + 1) g' rot' := by
  have hok : g.vertexOk (u : Int) = true ∧ g.vertexOk (v : Int) = true := by
    constructor <;> refine vertexOk_iff.2 ⟨by simp; omega, ?_, by omega⟩ <;> · unfold vSize; rw [h.N]; simp; omega
  have hM' : g.M < g.arcCap / 2 := by rw [h.M, h.cap]; exact hM
  have hu' := vertexOk_iff.1 hok.1
  have hv' := vertexOk_iff.1 hok.2
  rw [Int.toNat_natCast] at hu' hv'
  obtain ⟨g1, hg1, hI, hM1, hN1, hA1, -, -, -, -, -, hnb, hfl, -, -⟩ := putEdge_spec h.fit.inv hM' false false ⟨hu'.1, hu'.2.1⟩ ⟨hv'.1, hv'.2.1⟩
    (.inl rfl) (.inl rfl)
  have hx := takeSlot_spec h.fit.inv hM'
  have hadd : g.addEdge u 0 v 0 = some (g1, .ok) := by
    rw [addEdge_spec hok.1 hok.2 hM' (ul := 0) (vl := 0) rfl rfl, Int.toNat_natCast, Int.toNat_natCast, hg1]
  generalize g.takeSlot.1 = x at *
  obtain ⟨-, -, -, hxr, htr, -⟩ := hx
  have huv : u ≠ v := by omega
  have hr : ∀ w, placeRot rot u 0 false v 0 false x w = if w = u then twin x :: rot u else if w = v then [x] else rot w := by
    intro w
    unfold placeRot
    by_cases hw : w = v
    · subst hw
      simp only [Function.update_self, Function.update_of_ne (Ne.symm huv)]
      rw [h.rest w le_rfl, if_neg (Ne.symm huv)]
      simp only [if_true]
      rfl
    · rw [Function.update_of_ne hw]
      by_cases hwu : w = u
      · subst hwu
        rw [Function.update_self, if_pos rfl]
        rfl
      · rw [Function.update_of_ne hwu, if_neg hwu, if_neg hw]
  have hold : ∀ w e, e ∈ rot w → (g1.E e).nbr = (g.E e).nbr := by
    intro w e he
    rw [hnb, if_neg, if_neg]
    · rintro rfl; exact htr w he
    · rintro rfl; exact hxr w he
  have nx : (g1.E x).nbr = u := by rw [hnb, if_pos rfl]
  have nt : (g1.E (twin x)).nbr = v := by rw [hnb, if_neg (twin_ne x), if_pos rfl]
  have harc : ∀ a b, Arc g1 (placeRot rot u 0 false v 0 false x) a b ↔ Arc g rot a b ∨ (a = u ∧ b = v) ∨ (a = v ∧ b = u) := by
    intro a b
    constructor
    · rintro ⟨e, he, hb⟩
      rcases (mem_placeRot (.inl rfl) (.inl rfl)).1 he with ⟨rfl, rfl⟩ | ⟨rfl, rfl⟩ | he
      · exact .inr (.inl ⟨rfl, by rw [← hb, nt]⟩)
      · exact .inr (.inr ⟨rfl, by rw [← hb, nx]⟩)
      · exact .inl ⟨e, he, by rw [← hb, hold a e he]⟩
    · rintro (⟨e, he, hb⟩ | ⟨rfl, rfl⟩ | ⟨rfl, rfl⟩)
      · exact ⟨e, (mem_placeRot (.inl rfl) (.inl rfl)).2 (.inr (.inr he)), (hold a e he).trans hb⟩
      · exact ⟨twin x, (mem_placeRot (.inl rfl) (.inl rfl)).2 (.inl ⟨rfl, rfl⟩), nt⟩
      · exact ⟨x, (mem_placeRot (.inl rfl) (.inl rfl)).2 (.inr (.inl ⟨rfl, rfl⟩)), nx⟩
  have ht : Tree N cap (v + 1) g1 (placeRot rot u 0 false v 0 false x) := by
    refine ⟨⟨hI, fun e => by rw [hfl]; exact h.fit.low e⟩, hN1.trans h.N, hA1.trans h.cap, by rw [hM1, h.M]; omega, ?_, ?_, ?_, ?_⟩
    · intro w hw
      rw [hr, if_neg (by omega), if_neg (by omega), h.rest w (by omega)]
    · intro w
      have hmap : ∀ w, (rot w).map (fun e => (g1.E e).nbr) = (rot w).map fun e => (g.E e).nbr :=
        fun w => List.map_congr_left fun e he => hold w e he
      rw [hr]
      split
      · rw [List.map_cons, hmap, List.nodup_cons]
        refine ⟨fun hc => ?_, h.nodup u⟩
        obtain ⟨e, he, heq⟩ := List.mem_map.1 hc
        have := h.arc u v ⟨e, he, by rw [heq, nt]⟩
        omega
      · split
        · simp
        · rw [hmap]; exact h.nodup w
    · intro a b hab
      rcases (harc a b).1 hab with hh | ⟨rfl, rfl⟩ | ⟨rfl, rfl⟩
      · have := h.arc a b hh; omega
      · omega
      · omega
    · intro w h1 h3
      have mono : ∀ w, 1 ≤ w → w < v → Relation.ReflTransGen (Arc g1 (placeRot rot u 0 false v 0 false x)) 1 w := fun w h1 h3 =>
        Relation.ReflTransGen.mono (fun a b hab => (harc a b).2 (.inl hab)) _ _ (h.joined w h1 h3)
      by_cases hw : w = v
      · subst hw
        exact (mono u hu.1 hu.2).tail ((harc _ _).2 (.inr (.inl ⟨rfl, rfl⟩)))
      · exact mono w h1 (by omega)
  obtain ⟨y, hy, hyv⟩ : ∃ y ∈ placeRot rot u 0 false v 0 false x u, g1.neighborEdge u v = some y := by
    have hv1 : u < g1.vSize := by unfold vSize; rw [hN1, h.N]; omega
    refine ⟨((placeRot rot u 0 false v 0 false x u).find? fun e => (g1.E e).nbr = v).getD 0, ?_, ?_⟩
    rotate_left
    · unfold neighborEdge
      rw [if_neg (by omega)]
      simp only [rdV, hv1, if_true, Option.bind_eq_bind, Option.bind_some]
      rw [hI.links.first hv1]
      exact neighborEdgeLoop_suffix hI.links v _ [] _ rfl (hI.links.length_le u)
    · cases hf : List.find? (fun e => decide ((g1.E e).nbr = v)) (placeRot rot u 0 false v 0 false x u) with
      | none =>
        have := List.find?_eq_none.1 hf (twin x) ((mem_placeRot (.inl rfl) (.inl rfl)).2 (.inl ⟨rfl, rfl⟩))
        simp [nt] at this
      | some z =>
        simp only [Option.getD_some]
        exact List.mem_of_find?_eq_some hf
  generalize placeRot rot u 0 false v 0 false x = rot1 at *
  have hys := (hI.links.arc u y hy).2
  have hev : g1.eSize % 2 = 0 := by have := hI.even; unfold eSize; omega
  have htw := hI.twins u y hy
  obtain ⟨g2, e2, k2, M2, n2, -⟩ := ht.fit.marks (marks_setType 4) (e := y) (or_low (ht.fit.low _) (by omega)) (.inl ⟨_, hy⟩) hys
  have s2 : g2.eSize = g1.eSize := by unfold eSize; rw [k2.cap]
  obtain ⟨g3, e3, k3, M3, n3, -⟩ := k2.fit.marks (marks_setType 4) (e := twin y) (or_low (k2.fit.low _) (by omega)) (.inl ⟨_, htw⟩)
    (by rw [s2]; exact twin_lt hys hev)
  have s3 : g3.eSize = g1.eSize := by unfold eSize; rw [k3.cap, k2.cap]
  obtain ⟨g4, e4, k4, M4, n4, -⟩ := k3.fit.marks marks_clearVisited (e := y) (by have := k3.fit.low y; omega) (.inl ⟨_, hy⟩)
    (by rw [s3]; exact hys)
  have s4 : g4.eSize = g1.eSize := by unfold eSize; rw [k4.cap, k3.cap, k2.cap]
  obtain ⟨g5, e5, k5, M5, n5, -⟩ := k4.fit.marks marks_clearVisited (e := twin y) (by have := k4.fit.low (twin y); omega) (.inl ⟨_, htw⟩)
    (by rw [s4]; exact twin_lt hys hev)
  refine ⟨g5, rot1, ?_, (((ht.same k2 M2 n2).same k3 M3 n3).same k4 M4 n4).same k5 M5 n5⟩
  unfold treeEdge
  rw [hadd]
  simp only [Option.bind_eq_bind, Option.bind_some, ne_eq, not_true_eq_false, if_false, Int.toNat_natCast, hyv, Graph.setTypes]
  simp only [e2, e3, e4, e5, Option.bind_some, Option.pure_def]

/-- The first loop of `gp_CreateRandomGraphEx`: whatever the stream, if it is defined it makes a tree or fails for lack of
room. -/
theorem markedTree_spec {N cap : Nat} (rnd : Nat → Nat) : ∀ (k i v : Nat) (g : Graph) (rot : Nat → List Nat), Tree N cap v g rot → 2 ≤ v →
    v + k = N + 1 → ∀ g' r, markedTree rnd k i v g = some (g', r) →
    (r = .ok ∧ ∃ rot', Tree N cap (N + 1) g' rot') ∨ (r = .notok ∧ cap / 2 < N - 1)
  | 0, i, v, g, rot, h, h2, hk, g', r, he => by
    simp only [markedTree, Option.some.injEq, Prod.mk.injEq] at he
    obtain ⟨rfl, rfl⟩ := he
    obtain rfl : v = N + 1 := by omega
    exact .inl ⟨rfl, rot, h⟩
  | k + 1, i, v, g, rot, h, h2, hk, g', r, he => by
    rw [markedTree] at he
    cases hu : number (rnd i) 1 ((v : Int) - 1) with
    | none => rw [hu] at he; simp at he
    | some u =>
      have hb := number_bounds (by omega) hu
      obtain ⟨u', rfl⟩ : ∃ u' : Nat, (u' : Int) = u := ⟨u.toNat, by omega⟩
      rw [hu] at he
      simp only [Option.bind_eq_bind, Option.bind_some] at he
      by_cases hM : v - 2 < cap / 2
      · obtain ⟨g1, rot1, h1, ht⟩ := h.add h2 (by omega) (u := u') (by omega) hM
        rw [h1] at he
        exact markedTree_spec rnd k (i + 1) (v + 1) g1 rot1 ht (by omega) (by omega) g' r he
      · have hok : (g.vertexOk (u' : Int) && g.vertexOk (v : Int)) = true := by
          rw [Bool.and_eq_true]
          constructor <;> refine vertexOk_iff.2 ⟨by simp; omega, ?_, by omega⟩ <;> · unfold vSize; rw [h.N]; simp; omega
        have : treeEdge g u' v = some (g, .notok) := by
          unfold treeEdge
          have : g.addEdge u' 0 v 0 = some (g, .nonembeddable) := by
            have hMM : g.arcCap / 2 ≤ g.M := by rw [h.M, h.cap]; omega
            simp [addEdge, hok, hMM]
          rw [this]
          rfl
        rw [this] at he
        simp only [Option.bind_some, ne_eq, reduceCtorEq, not_false_eq_true, if_true, Option.some.injEq, Prod.mk.injEq] at he
        exact .inr ⟨he.2.symm, by omega⟩

/-- It is defined if no number of the stream overflows. -/
theorem markedTree_defined {N cap : Nat} {rnd : Nat → Nat} (hc : Clean rnd) (hN : N < 2147483647) (hroom : N - 1 ≤ cap / 2) :
    ∀ (k i v : Nat) (g : Graph) (rot : Nat → List Nat), Tree N cap v g rot → 2 ≤ v → v + k = N + 1 →
    ∃ g' r, markedTree rnd k i v g = some (g', r)
  | 0, i, v, g, rot, h, h2, hk => ⟨g, .ok, rfl⟩
  | k + 1, i, v, g, rot, h, h2, hk => by
    obtain ⟨u, hu⟩ := number_some (hc i).1 (hc i).2 (lo := 1) (hi := (v : Int) - 1) (by omega)
    have hb := number_bounds (by omega) hu
    obtain ⟨u', rfl⟩ : ∃ u' : Nat, (u' : Int) = u := ⟨u.toNat, by omega⟩
    rw [markedTree, hu]
    obtain ⟨g1, rot1, h1, ht⟩ := h.add h2 (by omega) (u := u') (by omega) (by omega)
    simp only [Option.bind_eq_bind, Option.bind_some, h1]
    exact markedTree_defined hc hN hroom k (i + 1) (v + 1) g1 rot1 ht (by omega) (by omega)

end Verif.Random
