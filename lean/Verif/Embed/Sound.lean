import Verif.Embed.JoinAll
import Verif.Embed.InitReady
import Verif.Embed.InitStart
import Verif.Map.Carry
import Verif.Test.Plane

/-
The result of the embedder.
-/
namespace Verif.Embed
open Verif Verif.Graph Verif.EGraph Verif.DFS Equiv Equiv.Perm Verif.Map Function Verif.Props

/-- How the graph after the sort is related to the input graph. -/
structure Sorted (s0 : PGraph) (rot : Nat → List Nat) (B : Base) (num inv : Nat → Nat) : Prop where
  out : ∀ u, 1 ≤ u → u ≤ s0.g.N → 1 ≤ num u ∧ num u ≤ s0.g.N ∧ inv (num u) = u
  back : ∀ d, 1 ≤ d → d ≤ s0.g.N → 1 ≤ inv d ∧ inv d ≤ s0.g.N ∧ num (inv d) = d
  A : ∀ e, B.A e ↔ ∃ u, e ∈ rot u
  N : B.N = s0.g.N
  nbr : ∀ u, ∀ e ∈ rot u, (B.g0.E e).nbr = num (hdOf s0 e)
  M : B.g0.M = s0.g.M
  arcCap : B.g0.arcCap = s0.g.arcCap
  holes : B.g0.holes = s0.g.holes
  holesCap : B.g0.holesCap = s0.g.holesCap
  stackCap : B.g0.stackCap = s0.g.stackCap
  flags : B.g0.flags = (s0.g.flags ||| 1) ^^^ 2
  index : ∀ d, 1 ≤ d → d ≤ s0.g.N → (B.g0.V d).index = inv d
  roots : ∀ u, IsPrimary s0 u → ∃ r, (IsPrimary s0 r ∧ B.par (num r) = 0 ∧ Joined s0.g u r) ∧
    ∀ r', IsPrimary s0 r' → B.par (num r') = 0 → Joined s0.g u r' → r' = r

theorem embed_some {s0 : PGraph} {outer : Bool} {s' : EGraph} (h : (ofP s0).embed outer = some (s', .ok)) :
    ∃ s1 s2 s3, (ofP s0).embeddingInitialize = some (s1, .ok) ∧ embedLoop outer s1.p.g.N s1 = some (s2, true) ∧
      s2.orientAll = some s3 ∧ s3.joinBicomps = some s' := by
  unfold EGraph.embed at h
  simp only [Option.bind_eq_bind] at h
  rw [Option.bind_eq_some_iff] at h
  obtain ⟨⟨s1, r⟩, h1, h⟩ := h
  dsimp only at h
  by_cases hr : r = .ok
  · subst hr
    rw [if_neg (by simp)] at h
    rw [Option.bind_eq_some_iff] at h
    obtain ⟨⟨s2, ok⟩, h2, h⟩ := h
    cases ok with
    | true =>
      dsimp only at h
      rw [if_pos rfl] at h
      rw [Option.bind_eq_some_iff] at h
      obtain ⟨s3, h3, h⟩ := h
      rw [Option.bind_eq_some_iff] at h
      obtain ⟨s4, h4, h⟩ := h
      have h := Option.some.inj h
      rw [Prod.mk.injEq] at h
      obtain ⟨rfl, _⟩ := h
      exact ⟨s1, s2, s3, h1, h2, h3, h4⟩
    | false =>
      dsimp only at h
      rw [if_neg (by simp)] at h
      have h := Option.some.inj h
      rw [Prod.mk.injEq] at h
      exact absurd h.2 (by simp)
  · rw [if_pos hr] at h
    have h := Option.some.inj h
    rw [Prod.mk.injEq] at h
    exact absurd h.2 (by simp)

/-- The main loop starts from a sound state. -/
theorem init_ready {s0 : PGraph} (hr : PReach s0) (hf : s0.g.dfsNumbered = false) (hsim : ∀ rot, PInv s0 rot → Simple s0 rot)
    (ap : Bool) : ∃ s1, (ofP s0).embeddingInitialize = some (s1, .ok) ∧
    ∃ rot B num inv Pl G fw, PInv s0 rot ∧ Sorted s0 rot B num inv ∧ Ready (B := B) Pl s1 G fw B.N ∧
      AllEnds Pl G fw B.N ∧ B.ap = ap := by
  obtain ⟨rot, hI, hc⟩ := hr.clean
  obtain ⟨hclean, hVI⟩ := hc hf
  have hS := hI.start hf
  have hsim := hsim rot hI
  obtain ⟨g, hg⟩ : ∃ g, s0.g.clearStack.clearVisitedAll = some g := ⟨_, clearVisitedAll_eq _⟩
  have h0 := srch_start hS hVI hg
  have hgN : g.N = s0.g.N := by
    rw [clearVisitedAll_eq] at hg
    rw [← Option.some.inj hg]
    rfl
  obtain ⟨sa, r, order, ha, hlen, hA⟩ := initOuter_spec hS hsim (g.N + 1) 1 (startRec s0) [] ((ofP s0).setG g) le_rfl h0
    (fun u h1 h2 _ => by omega) (fun u hu => by simp at hu) (by omega)
  obtain ⟨p, hp, inv, B, nb, la, fw, kid, hn, hF, hIs, hBA, hBN, hpar, hnbr, ⟨hM, hac, hho, hhc, hsc, hfl⟩, hidx, hap, P⟩ :=
    prep_of_search hI hf hclean hsim hA hlen ap
  have hg0 : p.g = B.g0 := P.g0
  have hNs : (sa.setG { sa.p.g with flags := sa.p.g.flags ||| 1 }).p.g.N = B.N := by
    show sa.p.g.N = B.N
    obtain ⟨cur, fw', kid', hs⟩ := hA.srch
    rw [hs.N, hBN]
  obtain ⟨sb, hb, m⟩ := Mid.loop P B.N le_rfl
  rw [Nat.sub_self] at m
  refine ⟨sb, ?_, rot, B, r.idx, inv, m.plan P, _, fw, hI, ⟨hn.out, hn.back, hBA, hBN, ?_, ?_, ?_, ?_, ?_, ?_, ?_, ?_, ?_⟩, m.ready P, m.ends P _, hap⟩
  · unfold embeddingInitialize
    have hcap := hI.cap
    rw [if_neg (by
      show ¬ ((s0.g.stackCap : Int) < 2 * s0.g.getArcCapacity)
      unfold getArcCapacity
      omega)]
    have hg' : (ofP s0).p.g.clearStack.clearVisitedAll = some g := hg
    simp only [Option.bind_eq_bind]
    rw [hg', Option.bind_some]
    have ha' : initOuter (g.N + 1) 1 1 ((ofP s0).setG g) = some sa := ha
    rw [ha', Option.bind_some, hp, Option.bind_some]
    dsimp only
    rw [if_neg (by simp), hNs]
    have hb' : (List.range B.N).foldlM (fun s i => s.initVertex (s.p.g.N - i))
        ((sa.setG { sa.p.g with flags := sa.p.g.flags ||| 1 }).setP p) = some sb := hb
    rw [hb']
    rfl
  · intro u e he; rw [← hg0]; exact (hnbr u e he).1
  · rw [← hg0, hM]
  · rw [← hg0, hac]
  · rw [← hg0, hho]
  · rw [← hg0, hhc]
  · rw [← hg0, hsc]
  · rw [← hg0, hfl]
  · intro d h1 h2; rw [← hg0]; exact hidx d h1 h2
  · have hz : ∀ u, IsPrimary s0 u → (B.par (r.idx u) = 0 ↔ r.par u = 0) := by
      rintro u ⟨h1, h2⟩
      have ho : 1 ≤ r.idx u ∧ r.idx u ≤ s0.g.N ∧ inv (r.idx u) = u := hn.out u h1 h2
      obtain ⟨o1, o2, o3⟩ := ho
      rw [hpar _ o1 o2]
      unfold sortPar relab
      rw [o3]
      by_cases hp0 : r.par u = 0
      · simp [hp0]
      · rw [if_neg hp0]
        have hq := (hF.up u ⟨h1, h2⟩ hp0).1
        have := (hn.out _ hq.1 hq.2).1
        exact ⟨fun hh => by omega, fun hh => absurd hh hp0⟩
    have hj : ∀ u w, Joined (searched s0 r order).g u w ↔ Joined s0.g u w := by
      intro u w
      constructor
      · intro hh
        induction hh with
        | refl => exact .refl _
        | step _ ha ih => exact .step ih ((arcTo_iff hI.inv).2 ((arcTo_iff hIs.inv).1 ha))
      · intro hh
        induction hh with
        | refl => exact .refl _
        | step _ ha ih => exact .step ih ((arcTo_iff hIs.inv).2 ((arcTo_iff hI.inv).1 ha))
    intro u hu
    obtain ⟨x, ⟨x1, x2, x3⟩, x4⟩ := hF.root u hu
    exact ⟨x, ⟨x1, (hz x x1).2 x2, (hj u x).1 x3⟩, fun y y1 y2 y3 => x4 y y1 ((hz y y1).1 y2) ((hj u y).2 y3)⟩

section
variable {s0 : PGraph} {rot : Nat → List Nat} {B : Base} {num inv : Nat → Nat} {s : EGraph} {σ : Perm B.D} {L : Nat → List B.D}
  {cp : Nat → Nat}

theorem Joining.prim (J : Joining B s σ L cp B.N) {x : Nat} {d : B.D} (hd : d ∈ L x) : 1 ≤ x ∧ x ≤ B.N := by
  have h1 := J.dom x (List.ne_nil_of_mem hd)
  refine ⟨h1.1, ?_⟩
  by_contra hx
  have e : x - B.N + B.N = x := by omega
  have := (J.root (x - B.N) (by omega) (by rw [e]; exact List.ne_nil_of_mem hd)).2.2
  omega

theorem Joining.at_own (J : Joining B s σ L cp B.N) {x : Nat} {d : B.D} (hd : d ∈ L x) : x = B.own d.1 := by
  rw [J.home x d hd, B.home_le (J.prim hd).2]

theorem Joining.mem_iff (J : Joining B s σ L cp B.N) {x : Nat} {d : B.D} : d ∈ L x ↔ x = B.own d.1 := by
  refine ⟨J.at_own, ?_⟩
  rintro rfl
  obtain ⟨x, hx⟩ := J.full d
  rw [← J.at_own hx]; exact hx

theorem Joining.nbr (J : Joining B s σ L cp B.N) (d : B.D) : (s.p.g.E d.1).nbr = (B.g0.E d.1).nbr := by
  obtain ⟨x, hx⟩ := J.full (B.α d)
  have h1 := J.owner x _ hx
  have h2 := J.at_own hx
  unfold Base.own at h2
  rw [B.α_val, twin_twin] at h1 h2
  rw [h1, h2]

theorem Sorted.numbered (S : Sorted s0 rot B num inv) (J : Joining B s σ L cp B.N) : s.p.g.dfsNumbered = true := by
  have h2 : s.p.g.flags = (s0.g.flags ||| 1) ^^^ 2 := by rw [J.fix.flags, S.flags]
  simp only [dfsNumbered, h2, ne_eq, decide_eq_true_eq]
  intro hh
  have := congrArg (fun n => n.testBit 0) hh
  simp at this

theorem Sorted.sorted (S : Sorted s0 rot B num inv) (J : Joining B s σ L cp B.N) (hs : s0.g.sortedByDfi = false) :
    s.p.g.sortedByDfi = true := by
  have h2 : s.p.g.flags = (s0.g.flags ||| 1) ^^^ 2 := by rw [J.fix.flags, S.flags]
  simp only [sortedByDfi, h2, ne_eq, decide_eq_true_eq]
  simp only [sortedByDfi, ne_eq, decide_eq_false_iff_not, not_not] at hs
  intro hh
  have h3 := congrArg (fun n => n.testBit 1) hh
  have h4 := congrArg (fun n => n.testBit 1) hs
  simp [Nat.testBit_and, Nat.testBit_xor, Nat.testBit_or, show Nat.testBit 2 1 = true by decide, show Nat.testBit 1 1 = false by decide] at h3 h4
  rw [h4] at h3
  exact absurd h3 (by decide)

/-- The final adjacency lists. -/
def lists (L : Nat → List B.D) (x : Nat) : List Nat := (L x).map (·.1)

theorem mem_lists {e x : Nat} : e ∈ lists L x ↔ ∃ h : B.A e, (⟨e, h⟩ : B.D) ∈ L x := mem_vals

theorem Sorted.name (S : Sorted s0 rot B num inv) (J : Joining B s σ L cp B.N) {u : Nat} (h1 : 1 ≤ u) (h2 : u ≤ s0.g.N) :
    (s.p.g.V u).index = inv u := by
  rw [J.fix.index u (by rw [B.hN, S.N]; exact h2), S.index u h1 h2]

theorem Sorted.pinv (S : Sorted s0 rot B num inv) (hI : PInv s0 rot) (J : Joining B s σ L cp B.N) : PInv s.p (lists L) := by
  have hN : s.p.g.N = s0.g.N := by rw [J.N, S.N]
  have hM : s.p.g.M = s0.g.M := by rw [J.fix.M, S.M]
  have hac : s.p.g.arcCap = s0.g.arcCap := by rw [J.fix.arcCap, S.arcCap]
  have hho : s.p.g.holes = s0.g.holes := by rw [J.fix.holes, S.holes]
  have hhc : s.p.g.holesCap = s0.g.holesCap := by rw [J.fix.holesCap, S.holesCap]
  have hsc : s.p.g.stackCap = s0.g.stackCap := by rw [J.fix.stackCap, S.stackCap]
  have hin : s.p.g.inUse = s0.g.inUse := by unfold inUse; rw [hM, hho]
  have hmem : ∀ e, (∃ u, e ∈ rot u) ↔ ∃ x, e ∈ lists L x := by
    intro e
    rw [← S.A e]
    constructor
    · intro h
      obtain ⟨x, hx⟩ := J.full ⟨e, h⟩
      exact ⟨x, mem_lists.2 ⟨h, hx⟩⟩
    · rintro ⟨x, hx⟩; exact (mem_lists.1 hx).1
  have hnum := S.numbered J
  refine ⟨⟨J.links, ?_, ?_, ?_, ?_, ?_, ?_, ?_, ?_, ?_, ?_⟩, ?_, ?_, ?_, ?_, ?_, ?_⟩
  · intro x e he
    obtain ⟨hA, hm⟩ := mem_lists.1 he
    exact J.owner x _ hm
  · intro x e he
    obtain ⟨hA, hm⟩ := mem_lists.1 he
    obtain ⟨y, hy⟩ := J.full (B.α ⟨e, hA⟩)
    have := J.owner y _ hy
    rw [B.α_val, twin_twin] at this
    rw [this]
    exact mem_lists.2 ⟨B.tw e hA, hy⟩
  · rw [hac]; exact hI.inv.even
  · rw [hM, hho, hac]; exact hI.inv.room
  · intro e he
    rw [hho] at he
    obtain ⟨a, b, c⟩ := hI.inv.holeRange e he
    refine ⟨a, by rw [hin]; exact b, ?_⟩
    intro v hv
    obtain ⟨u, hu⟩ := (hmem e).2 ⟨v, hv⟩
    exact c u hu
  · rw [hho]; exact hI.inv.holeNodup
  · intro e h1 h2
    rw [hin] at h2
    rw [hho, ← hmem]
    exact hI.inv.cover e h1 h2
  · intro v e he
    obtain ⟨u, hu⟩ := (hmem e).2 ⟨v, he⟩
    rw [hin]; exact hI.inv.below u e hu
  · intro e he
    refine J.zero e fun hA => ?_
    obtain ⟨x, hx⟩ := (hmem e).1 ((S.A e).1 hA)
    exact he x hx
  · rw [hac, hhc]; exact hI.inv.holesCap
  · intro u e he
    obtain ⟨hA, hm⟩ := mem_lists.1 he
    rw [J.N]; exact J.prim hm
  · rw [hac, hsc]; exact hI.cap
  · rw [hN, hsc]; exact hI.cap'
  · intro h; rw [hnum] at h; cases h
  · intro _
    refine ⟨⟨num, ?_, ?_⟩, ?_⟩
    · intro u h1 h2
      rw [hN] at h2 ⊢
      rw [S.name J h1 h2]
      exact S.back u h1 h2
    · intro d h1 h2
      rw [hN] at h2 ⊢
      obtain ⟨a, b, c⟩ := S.out d h1 h2
      refine ⟨a, b, ?_⟩
      rw [S.name J a b, c]
    · intro u h1 h2
      rw [J.N] at h2 ⊢
      rw [J.parent u h1 h2]
      have := B.par_lt u h1 h2
      omega
  · intro h; rw [hnum] at h; cases h

theorem Joining.live (J : Joining B s σ L cp B.N) (e : Nat) : B.A e ↔ ∃ u, e ∈ lists L u := by
  constructor
  · intro h
    obtain ⟨x, hx⟩ := J.full ⟨e, h⟩
    exact ⟨x, mem_lists.2 ⟨h, hx⟩⟩
  · rintro ⟨x, hx⟩; exact (mem_lists.1 hx).1

theorem Joining.next (J : Joining B s σ L cp B.N) (hI : PInv s.p (lists L)) (d : B.D) :
    (Equiv.subtypeEquivRight J.live) (σ d) = sg hI.inv.weak ((Equiv.subtypeEquivRight J.live) d) := by
  have hw := hI.inv.weak
  apply Subtype.ext
  obtain ⟨x, hx⟩ := J.full d
  obtain ⟨i, hi, e1⟩ := List.getElem_of_mem hx
  have hi' : i < (lists L x).length := by unfold lists; rw [List.length_map]; exact hi
  have e2 : (lists L x)[i] = d.1 := by rw [← e1]; exact List.getElem_map _
  have hd : (Equiv.subtypeEquivRight J.live) d = ⟨(lists L x)[i], x, List.getElem_mem hi'⟩ := Subtype.ext e2.symm
  rw [hd, sg_get hw hi']
  have ho := J.core.orbit x
  have e3 : σ d = (L x)[(i + 1) % (L x).length]'(Nat.mod_lt _ (by omega)) := by
    have h1 : ((L x).map σ)[i]? = ((L x).rotate 1)[i]? := by rw [ho]
    rw [List.getElem?_eq_getElem (by simpa using hi), List.getElem?_eq_getElem (by simpa using hi), List.getElem_map,
      List.getElem_rotate, e1] at h1
    exact Option.some.inj h1
  show (σ d).1 = _
  rw [e3]
  unfold lists
  simp only [List.getElem_map, List.length_map]

/-- The lists of a plane map make a plane embedding. -/
theorem Joining.plane (J : Joining B s σ L cp B.N) (hI : PInv s.p (lists L)) : PlaneEmbedding s.p := by
  have := dart_finite hI.inv.weak
  exact Test.flat_plane hI (Flat.equiv (Equiv.subtypeEquivRight J.live) (J.next hI) (fun d => rfl) J.core.flat)

theorem Joining.sameFace (J : Joining B s σ L cp B.N) (hI : PInv s.p (lists L)) {d d' : B.D} (h : SameCycle (σ * B.α) d d') :
    SameFace s.p.g d.1 d'.1 := by
  have := dart_finite hI.inv.weak
  refine (Test.sameFace_dart hI.inv (d := (Equiv.subtypeEquivRight J.live) d) (d' := (Equiv.subtypeEquivRight J.live) d')).2 ?_
  refine same_equiv (Equiv.subtypeEquivRight J.live) (f := σ * B.α) (f' := ph hI.inv.weak) ?_ h
  intro d
  rw [mul_apply, J.next hI]
  rfl

/-- Vertices that are joined have one label, and lists unless they are the same. -/
theorem Joining.label (J : Joining B s σ L cp B.N) (hI : PInv s.p (lists L)) {u v : Nat} (h : Joined s.p.g u v) :
    cp v = cp u ∧ (v = u ∨ L u ≠ [] ∧ L v ≠ []) := by
  induction h with
  | refl => exact ⟨rfl, .inl rfl⟩
  | @step b c e _ he ih =>
    obtain ⟨h1, h2⟩ := (arcTo_iff hI.inv).1 he
    obtain ⟨hA, hm⟩ := mem_lists.1 h1
    obtain ⟨y, hy, hc⟩ := J.pair b _ hm
    have ho := J.owner y _ hy
    rw [B.α_val, twin_twin] at ho
    have hyc : y = c := by rw [← ho]; exact h2
    subst hyc
    refine ⟨hc.trans ih.1, .inr ⟨?_, List.ne_nil_of_mem hy⟩⟩
    rcases ih.2 with rfl | ih
    · exact List.ne_nil_of_mem hm
    · exact ih.1

/-- In an outerplanar embedding the face of the root meets all vertices. -/
theorem Joining.rootFace (J : Joining B s σ L cp B.N) (hI : PInv s.p (lists L)) (ap : B.ap = true) : RootFace s.p := by
  intro r hr _ v hv
  obtain ⟨hc, hl⟩ := J.label hI hv
  rcases hl with rfl | ⟨n1, n2⟩
  · exact .inl rfl
  · right
    obtain ⟨p, l, e1⟩ := List.exists_cons_of_ne_nil n1
    obtain ⟨q, l', e2⟩ := List.exists_cons_of_ne_nil n2
    have hv' : r < s.p.g.vSize := by unfold vSize; have := hr.2; omega
    refine ⟨lists L r, p.1, q.1, hasList hI.inv.links hv', ?_, J.sameFace hI (J.face ap r v p q ?_ ?_ hc.symm),
      hI.inv.arcAt.2 (mem_lists.2 ⟨q.2, by rw [e2]; exact List.mem_cons_self⟩)⟩
    · unfold lists; rw [e1]; rfl
    · rw [e1]; rfl
    · rw [e2]; rfl

/-- The lists of a vertex after the embedding and of the same vertex before. -/
theorem Sorted.same_list (S : Sorted s0 rot B num inv) (hI : PInv s0 rot) (J : Joining B s σ L cp B.N) {u : Nat} (h1 : 1 ≤ u)
    (h2 : u ≤ s0.g.N) : (lists L u).Perm (rot (inv u)) := by
  have hnd : (lists L u).Nodup := J.links.nodup u
  rw [List.perm_ext_iff_of_nodup hnd (hI.inv.links.nodup _)]
  have hown : ∀ v e, e ∈ rot v → B.own e = num v := by
    intro v e he
    unfold Base.own
    rw [S.nbr _ _ (hI.inv.twins v e he)]
    show num (s0.g.E (twin e)).nbr = _
    rw [hI.inv.owner v e he]
  intro e
  rw [mem_lists]
  constructor
  · rintro ⟨hA, hm⟩
    obtain ⟨v, hv⟩ := (S.A e).1 hA
    have := J.at_own hm
    rw [hown v e hv] at this
    rw [this, (S.out v (hI.prim v e hv).1 (hI.prim v e hv).2).2.2]
    exact hv
  · intro he
    have hA := (S.A e).2 ⟨_, he⟩
    refine ⟨hA, J.mem_iff.2 ?_⟩
    rw [hown _ e he, (S.back u h1 h2).2.2]

/-- Where an arc leads after the embedding. -/
theorem Sorted.head (S : Sorted s0 rot B num inv) (J : Joining B s σ L cp B.N) {v e : Nat} (he : e ∈ rot v) :
    (s.p.g.E e).nbr = num (s0.g.E e).nbr := by
  rw [J.nbr ⟨e, (S.A e).2 ⟨v, he⟩⟩, S.nbr v e he]
  rfl

theorem Sorted.joined (S : Sorted s0 rot B num inv) (hI : PInv s0 rot) (J : Joining B s σ L cp B.N) (hP : PInv s.p (lists L)) {a b : Nat}
    (ha : IsPrimary s0 a) (h : Joined s0.g a b) : IsPrimary s0 b ∧ Joined s.p.g (num a) (num b) := by
  induction h with
  | refl => exact ⟨ha, .refl _⟩
  | step _ he ih =>
    obtain ⟨hb, ih⟩ := ih
    obtain ⟨h1, h2⟩ := (arcTo_iff hI.inv).1 he
    have h3 := hI.prim _ _ (hI.inv.twins _ _ h1)
    rw [h2] at h3
    refine ⟨h3, .step ih ((arcTo_iff hP.inv).2 ⟨?_, by rw [S.head J h1, h2]⟩)⟩
    obtain ⟨o1, o2, o3⟩ := S.out _ hb.1 hb.2
    refine (S.same_list hI J o1 o2).mem_iff.2 ?_
    rw [o3]; exact h1

theorem Sorted.joined' (S : Sorted s0 rot B num inv) (hI : PInv s0 rot) (J : Joining B s σ L cp B.N) (hP : PInv s.p (lists L)) {a b : Nat}
    (ha : IsPrimary s0 a) (h : Joined s.p.g a b) : IsPrimary s0 b ∧ Joined s0.g (inv a) (inv b) := by
  induction h with
  | refl => exact ⟨ha, .refl _⟩
  | step _ he ih =>
    obtain ⟨hb, ih⟩ := ih
    obtain ⟨h1, h2⟩ := (arcTo_iff hP.inv).1 he
    have h4 := (S.same_list hI J hb.1 hb.2).mem_iff.1 h1
    have h3 := hI.prim _ _ (hI.inv.twins _ _ h4)
    rw [S.head J h4] at h2
    obtain ⟨o1, o2, o3⟩ := S.out _ h3.1 h3.2
    rw [h2] at o1 o2 o3
    exact ⟨⟨o1, o2⟩, .step ih ((arcTo_iff hI.inv).2 ⟨h4, o3.symm⟩)⟩

theorem Sorted.rooted (S : Sorted s0 rot B num inv) (hI : PInv s0 rot) (J : Joining B s σ L cp B.N) (hP : PInv s.p (lists L)) :
    RootedOnce s.p := by
  have hN : s.p.g.N = s0.g.N := by rw [J.N, S.N]
  have hpp : ∀ u, IsPrimary s.p u ↔ IsPrimary s0 u := by intro u; unfold IsPrimary; rw [hN]
  have hgp : ∀ u, IsPrimary s0 u → s.p.getParent u = some (B.par u) := by
    intro u hu
    unfold PGraph.getParent PGraph.rdVI
    rw [if_pos (by have := hu.2; omega)]
    show some (s.p.VI u).parent = _
    rw [J.parent u hu.1 (by rw [S.N]; exact hu.2)]
  intro u hu
  rw [hpp] at hu
  obtain ⟨b1, b2, b3⟩ := S.back u hu.1 hu.2
  obtain ⟨x, ⟨x1, x2, x3⟩, x4⟩ := S.roots (inv u) ⟨b1, b2⟩
  obtain ⟨o1, o2, o3⟩ := S.out x x1.1 x1.2
  refine ⟨num x, ⟨(hpp _).2 ⟨o1, o2⟩, by rw [hgp _ ⟨o1, o2⟩, x2], ?_⟩, ?_⟩
  · have := (S.joined hI J hP ⟨b1, b2⟩ x3).2
    rwa [b3] at this
  · intro y y1 y2 y3
    rw [hpp] at y1
    rw [hgp y y1] at y2
    obtain ⟨q1, q2, q3⟩ := S.back y y1.1 y1.2
    have := x4 (inv y) ⟨q1, q2⟩ (by rw [q3]; exact Option.some.inj y2) (S.joined' hI J hP hu y3).2
    rw [← this, q3]

end

theorem simple_of {s0 : PGraph} (h : IsSimple s0.g) (rot : Nat → List Nat) (hI : PInv s0 rot) : Simple s0 rot := by
  intro u e he
  have hu := hI.inv.links.vert u e he
  obtain ⟨l, h1, h2, h3, _⟩ := h u (vSize_iff.2 hu)
  rw [neighbors_eq hI.inv hu.2] at h1
  obtain rfl := Option.some.inj h1
  refine ⟨fun hh => h3 (List.mem_map.2 ⟨e, he, hh⟩), ?_⟩
  intro e' he' hh
  exact List.inj_on_of_nodup_map h2 he he' hh

/-- An embedding the embedder reports is one. -/
theorem embed_sound {s0 : PGraph} (hr : PReach s0) (hf : s0.g.dfsNumbered = false) (hs : IsSimple s0.g) {outer : Bool} {s' : EGraph}
    (h : (ofP s0).embed outer = some (s', .ok)) :
    ∃ rot B num inv σ L cp, PInv s0 rot ∧ Sorted s0 rot B num inv ∧ Joining B s' σ L cp B.N ∧ B.ap = outer := by
  obtain ⟨s1, s2, s3, h1, h2, h3, h4⟩ := embed_some h
  obtain ⟨s1', h1', rot, B, num, inv, Pl, G, fw, hI, S, R, -, hap⟩ := init_ready hr hf (simple_of hs) outer
  rw [h1] at h1'
  cases h1'
  have hN : s1.p.g.N = B.N := R.st.rep.N
  rw [hN] at h2
  obtain ⟨s2', ok, hl, hc⟩ := embedLoop_spec hap.symm B.N s1 G fw le_rfl R
  rw [h2] at hl
  cases hl
  obtain ⟨-, G', fw', R'⟩ := hc.resolve_right (by simp)
  obtain ⟨s3', s4', σ, L, cp, h3', h4', J⟩ := R'.joined
  rw [h3] at h3'
  cases h3'
  rw [h4] at h4'
  cases h4'
  exact ⟨rot, B, num, inv, σ, L, cp, hI, S, J, hap⟩

/-- The embedder always comes to an end, without undefined behaviour and with a verdict. -/
theorem embed_total {s0 : PGraph} (hr : PReach s0) (hf : s0.g.dfsNumbered = false) (hs : IsSimple s0.g) (outer : Bool) :
    ∃ t r, (ofP s0).embed outer = some (t, r) ∧ r ≠ .notok := by
  obtain ⟨s1, h1, rot, B, num, inv, Pl, G, fw, hI, S, R, -, hap⟩ := init_ready hr hf (simple_of hs) outer
  have hN : s1.p.g.N = B.N := R.st.rep.N
  obtain ⟨s2, ok, hl, hc⟩ := embedLoop_spec hap.symm B.N s1 G fw le_rfl R
  unfold EGraph.embed
  simp only [Option.bind_eq_bind]
  rw [h1, Option.bind_some]
  dsimp only
  rw [if_neg (by simp), hN, hl, Option.bind_some]
  dsimp only
  rcases hc with ⟨rfl, G', fw', R'⟩ | ⟨rfl, -⟩
  · obtain ⟨s3, s4, σ, L, cp, h3, h4, J⟩ := R'.joined
    rw [if_pos rfl, h3, Option.bind_some, h4, Option.bind_some]
    exact ⟨s4, .ok, rfl, by simp⟩
  · rw [if_neg (by simp)]
    exact ⟨s2, .blocked, rfl, by simp⟩

theorem embed_blocked {s0 : PGraph} {outer : Bool} {s' : EGraph} (h : (ofP s0).embed outer = some (s', .blocked)) :
    ∃ s1, (ofP s0).embeddingInitialize = some (s1, .ok) ∧ embedLoop outer s1.p.g.N s1 = some (s', false) := by
  unfold EGraph.embed at h
  simp only [Option.bind_eq_bind] at h
  rw [Option.bind_eq_some_iff] at h
  obtain ⟨⟨s1, r⟩, h1, h⟩ := h
  refine ⟨s1, ?_⟩
  dsimp only at h
  by_cases hr : r = .ok
  · subst hr
    rw [if_neg (by simp)] at h
    rw [Option.bind_eq_some_iff] at h
    obtain ⟨⟨s2, ok⟩, h2, h⟩ := h
    cases ok with
    | true =>
      dsimp only at h
      rw [if_pos rfl] at h
      rw [Option.bind_eq_some_iff] at h
      obtain ⟨s3, h3, h⟩ := h
      rw [Option.bind_eq_some_iff] at h
      obtain ⟨s4, h4, h⟩ := h
      have h := Option.some.inj h
      rw [Prod.mk.injEq] at h
      exact absurd h.2 (by simp)
    | false =>
      dsimp only at h
      rw [if_neg (by simp)] at h
      have h := Option.some.inj h
      rw [Prod.mk.injEq] at h
      exact ⟨h1, h.1 ▸ h2⟩
  · rw [if_pos hr] at h
    have h := Option.some.inj h
    rw [Prod.mk.injEq] at h
    exact absurd h.2 (by simp)

/-- The state in which the embedder is blocked. -/
theorem embed_stuck {s0 : PGraph} (hr : PReach s0) (hf : s0.g.dfsNumbered = false) (hs : IsSimple s0.g) {outer : Bool} {s' : EGraph}
    (h : (ofP s0).embed outer = some (s', .blocked)) :
    ∃ rot B num inv, ∃ Pl : Plan B, ∃ v, PInv s0 rot ∧ Sorted s0 rot B num inv ∧ 1 ≤ v ∧ Given Pl s' v ∧ B.ap = outer := by
  obtain ⟨s1, h1, h2⟩ := embed_blocked h
  obtain ⟨s1', h1', rot, B, num, inv, Pl, G, fw, hI, S, R, E, hap⟩ := init_ready hr hf (simple_of hs) outer
  rw [h1] at h1'
  cases h1'
  have hN : s1.p.g.N = B.N := R.st.rep.N
  rw [hN] at h2
  obtain ⟨s2', ok, hl, hc⟩ := embedLoop_spec hap.symm B.N s1 G fw le_rfl R
  rw [h2] at hl
  cases hl
  obtain ⟨-, ⟨v, h1, hb⟩, -⟩ := hc.resolve_left (by simp)
  exact ⟨rot, B, num, inv, Pl, v, hI, S, h1, hb, hap⟩

/-- If the embedder is blocked, the graph, for outerplanar embedding with one more vertex adjacent to all others, has a minor that no
plane graph has. -/
theorem embed_complete {s0 : PGraph} (hr : PReach s0) (hf : s0.g.dfsNumbered = false) (hs : IsSimple s0.g) {outer : Bool} {s' : EGraph}
    (h : (ofP s0).embed outer = some (s', .blocked)) : ∃ rot B num inv, PInv s0 rot ∧ Sorted s0 rot B num inv ∧ B.Bad ∧ B.ap = outer := by
  obtain ⟨s1, h1, h2⟩ := embed_blocked h
  obtain ⟨s1', h1', rot, B, num, inv, Pl, G, fw, hI, S, R, E, hap⟩ := init_ready hr hf (simple_of hs) outer
  rw [h1] at h1'
  cases h1'
  have hN : s1.p.g.N = B.N := R.st.rep.N
  rw [hN] at h2
  obtain ⟨s2', ok, hl, hc⟩ := embedLoop_spec hap.symm B.N s1 G fw le_rfl R
  rw [h2] at hl
  cases hl
  obtain ⟨-, -, hb⟩ := hc.resolve_left (by simp)
  exact ⟨rot, B, num, inv, hI, S, hb hap.symm fun _ => E, hap⟩

end Verif.Embed
