import Verif.Random.Ends
import Verif.Random.Planar
import Verif.Props.G6

/-
C52 and C64: gp_CreateRandomGraphEx.
-/
namespace Verif.Props
open Verif Verif.Graph Verif.Random Verif.Isolate

/-- Neither an edge nor a code comes out of the loop for further edges when all vertices are joined. -/
theorem extraEx_stuck {g : Graph} (hf : ∀ u v : Nat, 1 ≤ u → u ≤ g.N → 1 ≤ v → v ≤ g.N → u ≠ v → g.isNeighbor u v = some true)
    {n : Int} (hN : 0 < g.N) (hn : (g.M : Int) < n) (rnd : Nat → Nat) (fuel i : Nat) :
    extraEx rnd n fuel i g = none ∨ extraEx rnd n fuel i g = some (g, none) := by
  induction fuel generalizing i with
  | zero => right; simp [extraEx, hn]
  | succ fuel ih =>
    rw [extraEx, if_pos hn]
    cases hu : number (rnd i) 1 g.N with
    | none => left; simp
    | some u =>
      cases hv : number (rnd (i + 1)) 1 g.N with
      | none => left; simp
      | some v =>
        have h1 := number_bounds (by omega) hu
        have h2 := number_bounds (by omega) hv
        have hat : attemptEx g u v = some (g, none) := by
          unfold attemptEx
          by_cases huv : u = v
          · simp [huv]
          · rw [if_pos huv, hf u.toNat v.toNat (by omega) (by omega) (by omega) (by omega) (by omega)]
            rfl
        simp only [Option.bind_eq_bind, Option.bind_some, hat]
        exact ih (i + 2)

/-- A new graph on three vertices with the default capacity. -/
def threeEx : PGraph := { g := Graph.init 3 18 }

/-- All vertices 1, 2, 3 joined, three edges. -/
def fullB (g : Graph) : Bool :=
  g.N = 3 && g.M = 3 && [(1, 2), (1, 3), (2, 1), (2, 3), (3, 1), (3, 2)].all fun p => g.isNeighbor p.1 p.2 == some true

theorem finishEx_stuck {s : PGraph} (h : fullB s.g = true) (rnd : Nat → Nat) (fuel : Nat) :
    finishEx rnd fuel 9 s = none ∨ ∃ t, finishEx rnd fuel 9 s = some (t, none) := by
  unfold fullB at h
  simp only [List.all_cons, List.all_nil, Bool.and_true, Bool.and_eq_true, decide_eq_true_eq, beq_iff_eq] at h
  obtain ⟨⟨hN, hM⟩, h12, h13, h21, h23, h31, h32⟩ := h
  have hf : ∀ u v : Nat, 1 ≤ u → u ≤ s.g.N → 1 ≤ v → v ≤ s.g.N → u ≠ v → s.g.isNeighbor u v = some true := by
    intro u v h1 h2 h3 h4 h5
    rw [hN] at h2 h4
    have hu : u = 1 ∨ u = 2 ∨ u = 3 := by omega
    have hv : v = 1 ∨ v = 2 ∨ v = 3 := by omega
    rcases hu with rfl | rfl | rfl <;> rcases hv with rfl | rfl | rfl <;> first | assumption | omega
  unfold finishEx
  rcases extraEx_stuck hf (n := 9) (by omega) (by omega) rnd fuel (s.g.N - 1) with h | h
  · left; rw [h]; rfl
  · right; rw [h]; exact ⟨_, rfl⟩

theorem afterTree_eq {rnd : Nat → Nat} {fuel : Nat} {n : Int} {s t : PGraph} (h : planarPhase n s = some (t, false)) :
    afterTree rnd fuel n s = finishEx rnd fuel n t := by
  unfold afterTree
  rw [h]
  rfl

theorem tree_step {rnd : Nat → Nat} {k i v : Nat} {g g' : Graph} {u : Int} (h : number (rnd i) 1 ((v : Int) - 1) = some u)
    (h' : treeEdge g u v = some (g', .ok)) : markedTree rnd (k + 1) i v g = markedTree rnd k (i + 1) (v + 1) g' := by
  rw [markedTree, h]
  simp only [Option.bind_eq_bind, Option.bind_some, h']
  rfl

/-- The graph of a successful call meets a test. -/
def okAnd (x : Option (Graph × Res)) (p : Graph → Bool) : Bool :=
  match x with
  | some (g, .ok) => p g
  | _ => false

/-- The graph of a phase that does not fail meets a test. -/
def goesOn (x : Option (PGraph × Bool)) (p : PGraph → Bool) : Bool :=
  match x with
  | some (s, false) => p s
  | _ => false

/-- The function returns a code and the result meets a test. -/
def endsWith (x : Option (PGraph × Option Res)) (r : Res) (p : PGraph → Bool) : Bool :=
  match x with
  | some (s, some r') => r' == r && p s
  | _ => false

theorem okAnd_iff {x p} (h : okAnd x p = true) : ∃ g, x = some (g, .ok) ∧ p g = true := by
  unfold okAnd at h
  split at h
  · exact ⟨_, rfl, h⟩
  · cases h

theorem goesOn_iff {x p} (h : goesOn x p = true) : ∃ s, x = some (s, false) ∧ p s = true := by
  unfold goesOn at h
  split at h
  · exact ⟨_, rfl, h⟩
  · cases h

theorem endsWith_iff {x r p} (h : endsWith x r p = true) : ∃ s, x = some (s, some r) ∧ p s = true := by
  unfold endsWith at h
  split at h
  · simp only [Bool.and_eq_true, beq_iff_eq] at h
    obtain ⟨rfl, h⟩ := h
    exact ⟨_, rfl, h⟩
  · cases h

/-- Both outcomes of the random tree on three vertices end in a triangle. -/
theorem planar_three : ∀ u ∈ [(1 : Int), 2], ∃ g1 g2 t, treeEdge (Graph.init 3 18) 1 2 = some (g1, .ok) ∧
    treeEdge g1 u 3 = some (g2, .ok) ∧ planarPhase 9 (threeEx.setG g2) = some (t, false) ∧ fullB t.g = true := by
  have key : ∀ u ∈ [(1 : Int), 2], okAnd (treeEdge (Graph.init 3 18) 1 2) (fun g1 => okAnd (treeEdge g1 u 3) fun g2 =>
      goesOn (planarPhase 9 (threeEx.setG g2)) fun t => fullB t.g) = true := by decide +kernel
  intro u hu
  obtain ⟨g1, h1, k1⟩ := okAnd_iff (key u hu)
  obtain ⟨g2, h2, k2⟩ := okAnd_iff k1
  obtain ⟨t, h3, k3⟩ := goesOn_iff k2
  exact ⟨g1, g2, t, h1, h2, h3, k3⟩

theorem bind_ok' (f : PGraph → Option (PGraph × Option Res)) (s : PGraph) {x : Option (Graph × Res)} {g1 : Graph}
    (hx : x = some (g1, .ok)) :
    (do let (g, r) ← x; if r ≠ Res.ok then some (s.setG g, some Res.notok) else f (s.setG g)) = f (s.setG g1) := by
  subst hx
  rfl

theorem fromTree_eq {rnd : Nat → Nat} {fuel : Nat} {n : Int} {s : PGraph} {g : Graph}
    (h : markedTree rnd (s.g.N - 1) 0 2 s.g = some (g, .ok)) :
    fromTree rnd fuel n s = afterTree rnd fuel n (s.setG g) := by
  unfold fromTree
  exact bind_ok' (afterTree rnd fuel n) s h

theorem fromTree_none {rnd : Nat → Nat} {fuel : Nat} {n : Int} {s : PGraph}
    (h : markedTree rnd (s.g.N - 1) 0 2 s.g = none) : fromTree rnd fuel n s = none := by
  unfold fromTree
  rw [h]
  rfl

/-- On a new graph of three vertices, a request for nine edges is never answered: for no random stream and after no number
of rounds is there a return code. -/
theorem random_ex_never_ends (rnd : Nat → Nat) (fuel : Nat) :
    createRandomGraphEx rnd fuel 9 threeEx = none ∨ ∃ t, createRandomGraphEx rnd fuel 9 threeEx = some (t, none) := by
  unfold createRandomGraphEx
  rw [show (min 9 ((threeEx.g.arcCap / 2 : Nat) : Int)) = 9 from by decide]
  cases h1 : number (rnd 0) 1 1 with
  | none =>
    left
    refine fromTree_none ?_
    rw [show threeEx.g.N - 1 = 2 from rfl, markedTree, show ((2 : Nat) : Int) - 1 = 1 from rfl, h1]
    rfl
  | some u1 =>
    have hu1 := number_bounds (by omega) h1
    obtain rfl : u1 = 1 := by omega
    cases h2 : number (rnd 1) 1 2 with
    | none =>
      left
      obtain ⟨g1, g2, t, e1, e2, e3, hf⟩ := planar_three 1 (by simp)
      refine fromTree_none ?_
      rw [show threeEx.g.N - 1 = 2 from rfl, show threeEx.g = Graph.init 3 18 from rfl, tree_step (u := 1) h1 e1, markedTree,
        show ((2 + 1 : Nat) : Int) - 1 = 2 from rfl, h2]
      rfl
    | some u2 =>
      have hu2 := number_bounds (by omega) h2
      obtain ⟨g1, g2, t, e1, e2, e3, hf⟩ := planar_three u2 (by
        have : u2 = 1 ∨ u2 = 2 := by omega
        rcases this with rfl | rfl <;> simp)
      have hg : markedTree rnd (threeEx.g.N - 1) 0 2 threeEx.g = some (g2, .ok) := by
        rw [show threeEx.g.N - 1 = 2 from rfl, show threeEx.g = Graph.init 3 18 from rfl, tree_step (u := 1) h1 e1,
          tree_step (u := u2) h2 e2, markedTree]
      rw [fromTree_eq hg, afterTree_eq e3]
      exact finishEx_stuck hf rnd fuel

/-- **C52, negation.** There is a request that is bound to loop forever. -/
theorem random_ex_ends_false : ¬ ∀ (N arcCap : Nat) (n : Int), 0 < N → arcCap % 2 = 0 → 0 ≤ n →
    ∃ rnd fuel t r, createRandomGraphEx rnd fuel n { g := Graph.init N arcCap } = some (t, some r) := by
  intro h
  obtain ⟨rnd, fuel, t, r, he⟩ := h 3 18 9 (by omega) (by omega) (by omega)
  rcases random_ex_never_ends rnd fuel with hn | ⟨t', hn⟩
  · rw [show threeEx = { g := Graph.init 3 18 } from rfl, he] at hn; cases hn
  · rw [show threeEx = { g := Graph.init 3 18 } from rfl, he] at hn
    simp at hn

/-- A random stream: constants, then ones. -/
def exStream (i : Nat) : Nat := [3, 7, 100, 4, 5, 6, 8].getD i 1

/-- **C64, negation.** A request for a number of edges between that of a tree and that of a maximal planar graph, within
the capacity, gives another number of edges or fails. -/
theorem random_ex_exact_false : ¬ ∀ (N arcCap n : Nat) (rnd : Nat → Nat) (fuel : Nat) (t : PGraph) (r : Res),
    N - 1 ≤ n → n ≤ 3 * N - 6 → n ≤ arcCap / 2 →
    createRandomGraphEx rnd fuel n { g := Graph.init N arcCap } = some (t, some r) → r = .ok ∧ t.g.M = n := by
  intro h
  have key : endsWith (createRandomGraphEx exStream 30 7 { g := Graph.init 6 36 }) .ok (fun t => t.g.M == 8) = true := by
    decide +kernel
  obtain ⟨t, ht, hM⟩ := endsWith_iff key
  have := h 6 36 7 exStream 30 t .ok (by omega) (by omega) (by omega) ht
  simp only [beq_iff_eq] at hM
  omega

/-- With the capacity of the requested number of edges the overrun makes the function fail. -/
theorem random_ex_fails : ∃ t, createRandomGraphEx exStream 30 7 { g := Graph.init 6 14 } = some (t, some .notok) := by
  have key : endsWith (createRandomGraphEx exStream 30 7 { g := Graph.init 6 14 }) .notok (fun _ => true) = true := by
    decide +kernel
  obtain ⟨t, ht, -⟩ := endsWith_iff key
  exact ⟨t, ht⟩

theorem Arc.adjacent {g : Graph} {rot : Nat → List Nat} (h : Inv g rot) {a b : Nat} (hab : Arc g rot a b) : Adjacent g a b := by
  obtain ⟨e, he, hb⟩ := hab
  exact ⟨_, neighbors_eq h (h.links.vert a e he).2, List.mem_map.2 ⟨e, he, hb⟩⟩

theorem joined_adjacent {g : Graph} {rot : Nat → List Nat} (h : Inv g rot) {a b : Nat} (hab : Relation.ReflTransGen (Arc g rot) a b) :
    Relation.ReflTransGen (Adjacent g) a b := by
  induction hab with
  | refl => exact .refl
  | tail _ h2 ih => exact ih.tail (Arc.adjacent h h2)

/-- All edges are undirected and without marks, and no vertex has a parent recorded. -/
def NoMarks (t : PGraph) : Prop :=
  Undirected t.g ∧ (∀ e, Live t.g e → t.g.getType e = some 0 ∧ ∃ r, t.g.rdE e = some r ∧ r.flags &&& 1 = 0) ∧
    ∀ v, 1 ≤ v → v ≤ t.g.N → t.getParent v = some 0

theorem noMarks_of {t : PGraph} {rot : Nat → List Nat} (h : Inv t.g rot) (h1 : ∀ e, (t.g.E e).flags = 0)
    (h2 : ∀ v, 1 ≤ v → v ≤ t.g.N → (t.VI v).parent = 0) : NoMarks t := by
  have hs : ∀ e, Live t.g e → e < t.g.eSize := by
    rintro e ⟨w, he⟩
    exact (h.links.arc w e (h.arcAt.1 he)).2
  refine ⟨fun e he => ?_, fun e he => ⟨?_, t.g.E e, ?_, ?_⟩, fun v a b => ?_⟩
  · simp [getDirection, rdE, hs e he, h1]
  · simp [Graph.getType, rdE, hs e he, h1]
  · simp [rdE, hs e he]
  · rw [h1]; rfl
  · have : v < 1 + t.g.N := by omega
    simp [PGraph.getParent, PGraph.rdVI, this, h2 v a b]

theorem okAnd_tree {N arcCap : Nat} (hN : 0 < N) (hc : arcCap % 2 = 0) (rnd : Nat → Nat) {g : Graph} {r : Res}
    (h : markedTree rnd (N - 1) 0 2 (Graph.init N arcCap) = some (g, r)) :
    (r = .ok ∧ ∃ rot', Tree N arcCap (N + 1) g rot') ∨ (r = .notok ∧ arcCap / 2 < N - 1) :=
  markedTree_spec rnd (N - 1) 0 2 _ _ (tree_init N arcCap hc) (by omega) (by omega) g r h

/-- **C64 (what OK means).** Whatever the random stream, if the call on a new graph returns OK then the adjacency lists are
consistent, all vertices are joined to vertex 1, no marks are left, and there are at least as many edges as requested or as
the capacity allows and no more than the capacity allows. Missing: that there are exactly as many, which is false
(`random_ex_exact_false`), and that the edges are distinct. -/
theorem random_ex_partial {N arcCap : Nat} (hN : 0 < N) (hc : arcCap % 2 = 0) {n : Int} {rnd : Nat → Nat} {fuel : Nat} {t : PGraph}
    (h : createRandomGraphEx rnd fuel n { g := Graph.init N arcCap } = some (t, some .ok)) :
    t.g.N = N ∧ t.g.arcCap = arcCap ∧ (∀ w, IsVertex t.g w → ∃ l, neighbors t.g w = some l) ∧
      (∀ u v, Adjacent t.g u v → Adjacent t.g v u) ∧ (∀ w, 1 ≤ w → w ≤ N → Relation.ReflTransGen (Adjacent t.g) 1 w) ∧
      min n (arcCap / 2 : Nat) ≤ t.g.M ∧ t.g.M ≤ arcCap / 2 ∧ NoMarks t := by
  have hmin : ((({ g := Graph.init N arcCap } : PGraph).g.arcCap / 2 : Nat) : Int) = (arcCap / 2 : Nat) := rfl
  unfold createRandomGraphEx at h
  rw [hmin] at h
  generalize min n ((arcCap / 2 : Nat) : Int) = m at h ⊢
  have hens : Ens (fromTree rnd fuel m { g := Graph.init N arcCap }) fun r => r.2 = some .ok → ∃ rot g0 rot0, Tree N arcCap (N + 1) g0 rot0 ∧
      Grew g0 rot0 r.1.g rot ∧ m ≤ r.1.g.M ∧ (∀ e, (r.1.g.E e).flags = 0) ∧ ∀ v, 1 ≤ v → v ≤ r.1.g.N → (r.1.VI v).parent = 0 := by
    unfold fromTree
    refine Ens.skip fun ⟨g1, r1⟩ h1 => Ens.ite (fun _ => Ens.some fun hc => by cases hc) fun hr => ?_
    rcases okAnd_tree hN hc rnd h1 with ⟨rfl, rot0, ht⟩ | ⟨rfl, -⟩
    · unfold afterTree
      refine Ens.bind (planarPhase_ens (s := PGraph.setG { g := Graph.init N arcCap } g1) ht.fit m) fun ⟨s2, f2⟩ h2 =>
        Ens.ite (fun _ => Ens.some fun hc => by cases hc) fun _ => ?_
      unfold finishEx
      refine Ens.bind (extraEx_ens rnd m fuel _ _ h2) fun ⟨g3, r3⟩ ⟨⟨rot3, h3⟩, h3'⟩ => ?_
      match r3, h3' with
      | none, _ => exact Ens.some fun hc => by cases hc
      | some .notok, _ => exact Ens.some fun hc => by cases hc
      | some .nonembeddable, _ => exact Ens.some fun hc => by cases hc
      | some .ok, h3' =>
        obtain ⟨t, e, h4, h5, -, h6, h7⟩ := cleanUp_total (s := s2.setG g3) h3.fit
        show Ens (cleanUp (s2.setG g3) >>= fun x => Pure.pure (x, some Res.ok)) _
        rw [e]
        refine Ens.some fun _ => ⟨rot3, g1, rot0, ht, h3.trans h4, ?_, h6, fun v a b => h7 v a (by rw [← h4.N]; exact b)⟩
        have := (h3' rfl).1
        show m ≤ (t.g.M : Int)
        rw [h5]; exact this
    · exact absurd (by decide) hr
  obtain ⟨rot, g0, rot0, ht, hg, hm, hf, hp⟩ := hens _ h rfl
  have hi := hg.fit.inv
  refine ⟨hg.N.trans ht.N, hg.cap.trans ht.cap, fun w hw => ⟨_, neighbors_eq hi (vSize_iff.1 hw).2⟩, ?_, ?_, hm, ?_, noMarks_of hi hf hp⟩
  · rintro u v ⟨l, hl, hv⟩
    by_cases hu : u < t.g.vSize
    · rw [neighbors_eq hi hu] at hl
      cases hl
      obtain ⟨e, he, rfl⟩ := List.mem_map.1 hv
      exact Arc.adjacent hi ⟨twin e, hi.twins u e he, hi.owner u e he⟩
    · simp [neighbors, walk, getArc, rdV, hu] at hl
  · intro w h1 h2
    have := Relation.ReflTransGen.mono (fun a b => hg.arc a b) _ _ (ht.joined w h1 (by omega))
    exact joined_adjacent hi this
  · have h1 : t.g.M + t.g.holes.length ≤ t.g.arcCap / 2 := hi.room
    have h2 : t.g.arcCap = arcCap := hg.cap.trans ht.cap
    rw [h2] at h1
    omega

/-- **C52, C64 (requests for a tree).** A request for at most N - 1 edges on a new graph with room for N - 1 always ends, without
a round of the loop for further edges, and gives a tree on all vertices: N - 1 distinct edges that join every vertex to
vertex 1. For a request of N - 1 that is the number asked for. -/
theorem random_ex_tree_partial {N arcCap : Nat} (hN : 0 < N) (hN2 : N < 715827882) (hc : arcCap % 2 = 0) (hroom : N - 1 ≤ arcCap / 2)
    {n : Int} (hn : n ≤ (N : Int) - 1) {rnd : Nat → Nat} (hr : Clean rnd) (fuel : Nat) :
    ∃ t, createRandomGraphEx rnd fuel n { g := Graph.init N arcCap } = some (t, some .ok) ∧ t.g.M = N - 1 ∧ t.g.N = N ∧ IsSimple t.g ∧
      (∀ w, 1 ≤ w → w ≤ N → Relation.ReflTransGen (Adjacent t.g) 1 w) ∧ NoMarks t := by
  obtain ⟨g1, r1, h1⟩ := markedTree_defined hr (by omega) hroom (N - 1) 0 2 _ _ (tree_init N arcCap hc) (by omega) (by omega)
  rcases okAnd_tree hN hc rnd h1 with ⟨rfl, rot, ht⟩ | ⟨-, hx⟩
  · have hmin : min n ((({ g := Graph.init N arcCap } : PGraph).g.arcCap / 2 : Nat) : Int) ≤ (N : Int) - 1 := by
      exact le_trans (min_le_left _ _) hn
    unfold createRandomGraphEx
    generalize min n ((({ g := Graph.init N arcCap } : PGraph).g.arcCap / 2 : Nat) : Int) = m at hmin
    rw [fromTree_eq (s := { g := Graph.init N arcCap }) h1]
    generalize hs : PGraph.setG { g := Graph.init N arcCap } g1 = s
    have hsg : s.g = g1 := by rw [← hs]; rfl
    rw [← hsg] at ht
    have hsN : s.g.N = N := ht.N
    obtain ⟨s2, c2, e2, rot2, k2, M2, p2, n2⟩ := child_total ht.fit (fun x a b => ht.rest x (by omega)) (p := 1) ⟨by omega, by omega⟩
    have hM2 : s2.g.M = N - 1 := by rw [M2, ht.M]; omega
    have hpl : planarPhase m s = some (s2, false) := by
      unfold planarPhase
      rw [show ckInt (3 * (s.g.N : Int)) = some (3 * (s.g.N : Int)) from by unfold ckInt; rw [if_pos (by omega)]]
      simp only [Option.bind_eq_bind, Option.bind_some, e2]
      rw [planarLoop, if_neg]
      rintro ⟨-, hc⟩
      have := lt_of_lt_of_le hc (min_le_left _ _)
      rw [hM2] at this
      omega
    rw [afterTree_eq hpl]
    have hex : extraEx rnd m fuel (s2.g.N - 1) s2.g = some (s2.g, some .ok) := by
      cases fuel <;> rw [extraEx, if_neg (by rw [hM2]; omega)]
    obtain ⟨t, e3, k3, M3, n3, f3, pp⟩ := cleanUp_total k2.fit
    have hfin : finishEx rnd fuel m s2 = some (t, some .ok) := by
      unfold finishEx
      rw [hex]
      show (cleanUp s2 >>= fun x => Pure.pure (x, some Res.ok)) = _
      rw [e3]; rfl
    have hi := k3.fit.inv
    have hn' : ∀ a, (t.g.E a).nbr = (s.g.E a).nbr := fun a => (n3 a).trans (n2 a)
    have htN : t.g.N = N := k3.N.trans (k2.N.trans hsN)
    refine ⟨t, hfin, M3.trans hM2, htN, ?_, ?_, noMarks_of hi f3 fun v a b => pp v a (by rw [← k3.N]; exact b)⟩
    · intro w hw
      have harc : ∀ x, x ∈ (rot2 w).map (fun e => (t.g.E e).nbr) → Arc s.g rot w x := by
        intro x hx
        obtain ⟨e, he, rfl⟩ := List.mem_map.1 hx
        exact ⟨e, (p2 w).mem_iff.1 he, (hn' e).symm⟩
      refine ⟨_, neighbors_eq hi (vSize_iff.1 hw).2, ?_, fun hc => (ht.arc _ _ (harc w hc)).1 rfl, fun x hx => ?_, fun hlt => ?_⟩
      · have : (rot2 w).map (fun e => (t.g.E e).nbr) = (rot2 w).map fun e => (s.g.E e).nbr := List.map_congr_left fun e _ => hn' e
        rw [this]
        exact ((p2 w).map _).nodup_iff.2 (ht.nodup w)
      · have := (ht.arc _ _ (harc x hx)).2
        omega
      · have h0 := ht.rest w (by omega)
        have : rot2 w = [] := by
          have := p2 w
          rw [h0] at this
          exact this.eq_nil
        rw [this]; rfl
    · intro w a b
      have := Relation.ReflTransGen.mono (fun a b hh => k3.arc a b (k2.arc a b hh)) _ _ (ht.joined w a (by omega))
      exact joined_adjacent hi this
  · omega

/-- The hypotheses of `random_ex_tree_partial` hold for six vertices and a stream, and a call for which `random_ex_partial`
applies gives eight edges for a request of seven. -/
example : Clean exStream ∧ (0 : Nat) < 6 ∧ 36 % 2 = 0 ∧ 6 - 1 ≤ 36 / 2 ∧ (5 : Int) ≤ (6 : Nat) - 1 ∧
    endsWith (createRandomGraphEx exStream 30 5 { g := Graph.init 6 36 }) .ok (fun t => t.g.M == 5) = true ∧
    endsWith (createRandomGraphEx exStream 30 7 { g := Graph.init 6 36 }) .ok (fun t => t.g.M == 8) = true := by
  refine ⟨fun i => ?_, by omega, by omega, by omega, by omega, by decide +kernel, by decide +kernel⟩
  have : exStream i < 1000 := by
    unfold exStream
    rcases i with _ | _ | _ | _ | _ | _ | _ | i <;> simp
  omega

end Verif.Props
