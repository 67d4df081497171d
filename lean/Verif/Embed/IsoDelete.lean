import Verif.Embed.IsoAdd

/-
Deleting the edges that are not marked, and the isolation as a whole.
-/
namespace Verif.Isolate
open Verif Verif.Embed Verif.Graph Verif.EGraph Verif.Random Verif.Test Verif.DFS Function

variable {B : Base} {s s' : EGraph} {L : Nat → List Nat} {s0 : PGraph} {rot : Nat → List Nat} {num inv : Nat → Nat}

/-- Arcs are in the lists of their owners once nothing waits. -/
theorem Joined.mem_iff (h : Joined B s L fun _ => []) {x e : Nat} : e ∈ L x ↔ B.A e ∧ B.own e = x := by
  have key : ∀ y, e ∈ L y → B.own e = y := by
    intro y hy
    have hv := h.part.lk.links.vert y e hy
    rw [h.part.vSize] at hv
    have h1 := h.part.home y e hy
    rwa [B.home_le] at h1
    by_contra hh
    have := h.shut (y - B.N) (by omega)
    rw [show y - B.N + B.N = y by omega] at this
    rw [this] at hy
    cases hy
  constructor
  · intro he; exact ⟨h.part.lk.arc x e he, key x he⟩
  · rintro ⟨hA, rfl⟩
    rcases h.part.cover e hA with ⟨x, hx⟩ | ⟨u, hu⟩
    · rw [key x hx]; exact hx
    · rcases hu with hu | hu <;> cases hu

theorem Joined.prim (h : Joined B s L fun _ => []) {x e : Nat} (he : e ∈ L x) : 1 ≤ x ∧ x ≤ B.N := by
  have hv := h.part.lk.links.vert x e he
  rw [h.part.vSize] at hv
  refine ⟨hv.1, ?_⟩
  by_contra hh
  have := h.shut (x - B.N) (by omega)
  rw [show x - B.N + B.N = x by omega] at this
  rw [this] at he
  cases he

theorem Joined.nbr (h : Joined B s L fun _ => []) {e : Nat} (hA : B.A e) : (s.p.g.E e).nbr = (B.g0.E e).nbr := by
  have h1 : twin e ∈ L (B.own (twin e)) := h.mem_iff.2 ⟨B.tw e hA, rfl⟩
  have := h.part.lk.owner _ _ h1
  rw [twin_twin] at this
  rw [this]
  unfold Base.own
  rw [twin_twin]

theorem Joined.numbered (S : Sorted s0 rot B num inv) (J : Joined B s L fun _ => []) : s.p.g.dfsNumbered = true := by
  have h2 : s.p.g.flags = (s0.g.flags ||| 1) ^^^ 2 := by rw [J.part.fix.flags, S.flags]
  simp only [dfsNumbered, h2, ne_eq, decide_eq_true_eq]
  intro hh
  have := congrArg (fun n => n.testBit 0) hh
  simp at this

theorem Joined.sorted (S : Sorted s0 rot B num inv) (J : Joined B s L fun _ => []) (hs : s0.g.sortedByDfi = false) :
    s.p.g.sortedByDfi = true := by
  have h2 : s.p.g.flags = (s0.g.flags ||| 1) ^^^ 2 := by rw [J.part.fix.flags, S.flags]
  simp only [sortedByDfi, h2, ne_eq, decide_eq_true_eq]
  simp only [sortedByDfi, ne_eq, decide_eq_false_iff_not, not_not] at hs
  intro hh
  have h3 := congrArg (fun n => n.testBit 1) hh
  have h4 := congrArg (fun n => n.testBit 1) hs
  simp [Nat.testBit_and, Nat.testBit_xor, Nat.testBit_or, show Nat.testBit 2 1 = true by decide, show Nat.testBit 1 1 = false by decide] at h3 h4
  rw [h4] at h3
  exact absurd h3 (by decide)

theorem Joined.name (S : Sorted s0 rot B num inv) (J : Joined B s L fun _ => []) {u : Nat} (h1 : 1 ≤ u) (h2 : u ≤ s0.g.N) :
    (s.p.g.V u).index = inv u := by
  rw [J.part.fix.index u (by rw [B.hN, S.N]; exact h2), S.index u h1 h2]

/-- The graph with all its edges, once more. -/
theorem Joined.pinv (S : Sorted s0 rot B num inv) (hI : PInv s0 rot) (J : Joined B s L fun _ => []) : PInv s.p L := by
  have hN : s.p.g.N = s0.g.N := by rw [J.part.N, S.N]
  have hM : s.p.g.M = s0.g.M := by rw [J.part.fix.M, S.M]
  have hac : s.p.g.arcCap = s0.g.arcCap := by rw [J.part.fix.arcCap, S.arcCap]
  have hho : s.p.g.holes = s0.g.holes := by rw [J.part.fix.holes, S.holes]
  have hhc : s.p.g.holesCap = s0.g.holesCap := by rw [J.part.fix.holesCap, S.holesCap]
  have hsc : s.p.g.stackCap = s0.g.stackCap := by rw [J.part.fix.stackCap, S.stackCap]
  have hin : s.p.g.inUse = s0.g.inUse := by unfold inUse; rw [hM, hho]
  have hmem : ∀ e, (∃ u, e ∈ rot u) ↔ ∃ x, e ∈ L x := by
    intro e
    rw [← S.A e]
    exact ⟨fun h => ⟨_, J.mem_iff.2 ⟨h, rfl⟩⟩, fun ⟨x, hx⟩ => (J.mem_iff.1 hx).1⟩
  have hnum := J.numbered S
  refine ⟨⟨J.part.lk.links, J.part.lk.owner, ?_, ?_, ?_, ?_, ?_, ?_, ?_, ?_, ?_⟩, ?_, ?_, ?_, ?_, ?_, ?_⟩
  · intro x e he
    obtain ⟨y, hy⟩ := J.part.lk.pair x e he
    have := J.part.lk.owner y _ hy
    rw [twin_twin] at this
    rw [this]; exact hy
  · rw [hac]; exact hI.inv.even
  · rw [hM, hho, hac]; exact hI.inv.room
  · intro e he
    rw [hho] at he
    obtain ⟨a, b, c⟩ := hI.inv.holeRange e he
    refine ⟨a, by rw [hin]; exact b, ?_⟩
    intro v hv
    obtain ⟨u, hu⟩ := (hmem e).2 ⟨v, hv⟩
    exact c u hu
  · rw [hho]; exact hI.inv.holeNodup
  · intro e h1 h2
    rw [hin] at h2
    rw [hho, ← hmem]
    exact hI.inv.cover e h1 h2
  · intro v e he
    obtain ⟨u, hu⟩ := (hmem e).2 ⟨v, he⟩
    rw [hin]; exact hI.inv.below u e hu
  · intro e he
    refine J.part.lk.blank e fun hA => ?_
    obtain ⟨x, hx⟩ := (hmem e).1 ((S.A e).1 hA)
    exact he x hx
  · rw [hac, hhc]; exact hI.inv.holesCap
  · intro u e he
    rw [J.part.N]; exact J.prim he
  · rw [hac, hsc]; exact hI.cap
  · rw [hN, hsc]; exact hI.cap'
  · intro h; rw [hnum] at h; cases h
  · intro _
    refine ⟨⟨num, ?_, ?_⟩, ?_⟩
    · intro u h1 h2
      rw [hN] at h2 ⊢
      rw [J.name S h1 h2]
      exact S.back u h1 h2
    · intro d h1 h2
      rw [hN] at h2 ⊢
      obtain ⟨a, b, c⟩ := S.out d h1 h2
      refine ⟨a, b, ?_⟩
      rw [J.name S a b, c]
    · intro u h1 h2
      rw [J.part.N] at h2 ⊢
      rw [J.part.parent u h1 h2]
      have := B.par_lt u h1 h2
      omega
  · intro h; rw [hnum] at h; cases h

theorem Joined.same_list (S : Sorted s0 rot B num inv) (hI : PInv s0 rot) (J : Joined B s L fun _ => []) {u : Nat} (h1 : 1 ≤ u)
    (h2 : u ≤ s0.g.N) : (L u).Perm (rot (inv u)) := by
  rw [List.perm_ext_iff_of_nodup (J.part.lk.links.nodup u) (hI.inv.links.nodup _)]
  have hown : ∀ v e, e ∈ rot v → B.own e = num v := by
    intro v e he
    unfold Base.own
    rw [S.nbr _ _ (hI.inv.twins v e he)]
    show num (s0.g.E (twin e)).nbr = _
    rw [hI.inv.owner v e he]
  intro e
  rw [J.mem_iff]
  constructor
  · rintro ⟨hA, hm⟩
    obtain ⟨v, hv⟩ := (S.A e).1 hA
    rw [hown v e hv] at hm
    rw [← hm, (S.out v (hI.prim v e hv).1 (hI.prim v e hv).2).2.2]
    exact hv
  · intro he
    refine ⟨(S.A e).2 ⟨_, he⟩, ?_⟩
    rw [hown _ e he, (S.back u h1 h2).2.2]

/-- Some edges have been deleted. -/
structure Cut (g0 : Graph) (L : Nat → List Nat) (g : Graph) (L' : Nat → List Nat) : Prop where
  inv : Inv g L'
  sub : ∀ x, (L' x).Sublist (L x)
  nbr : ∀ x e, e ∈ L' x → (g.E e).nbr = (g0.E e).nbr
  N : g.N = g0.N
  M : g.M ≤ g0.M
  arcCap : g.arcCap = g0.arcCap
  stackCap : g.stackCap = g0.stackCap
  flags : g.flags = g0.flags
  index : ∀ v, (g.V v).index = (g0.V v).index

variable {g0 g : Graph} {L' : Nat → List Nat}

theorem Cut.refl (h : Inv g L) : Cut g L g L :=
  ⟨h, fun _ => .refl _, fun _ _ _ => rfl, rfl, le_rfl, rfl, rfl, rfl, fun _ => rfl⟩

theorem removeRot_sub (x : Nat) (rot : Nat → List Nat) (w : Nat) : (removeRot x rot w).Sublist (rot w) := List.filter_sublist

theorem deleteLoop_spec (ha : ∀ x e, e ∈ L x → twin e ∉ L x) {v : Nat} : ∀ (fuel e : Nat) (g : Graph) (L' : Nat → List Nat), Cut g0 L g L' →
    (e = 0 ∨ e ∈ L' v) → Ens (deleteLoop fuel g e) fun g' => ∃ L'', Cut g0 L g' L''
  | 0, e, g, L', h, _ => by unfold deleteLoop; exact Ens.ite (fun _ => Ens.some ⟨L', h⟩) fun _ => Ens.none
  | fuel + 1, e, g, L', h, he => by
    unfold deleteLoop
    refine Ens.ite (fun _ => Ens.some ⟨L', h⟩) fun h0 => ?_
    have he := he.resolve_left h0
    refine Ens.skip fun m _ => Ens.ite (fun _ => ?_) fun _ => ?_
    · refine Ens.bind (getAdj_val e false) fun n hn => deleteLoop_spec ha (v := v) fuel n g L' h ?_
      rw [h.inv.links.elink v false e he] at hn
      rw [hn]
      by_cases hz : nextIn (L' v) e = 0
      · exact .inl hz
      · exact .inr (nextIn_mem hz)
    · obtain ⟨g', h1, h2, h3, h4, h5, h6, -, h8, -, -, h9, h10, -⟩ := deleteEdge_spec h.inv he 0 false rfl
      rw [h1]
      refine deleteLoop_spec ha (v := v) fuel _ g' (removeRot e L') ?_ ?_
      · refine ⟨h2, fun x => (removeRot_sub e L' x).trans (h.sub x), ?_, h4.trans h.N, by have := h.M; omega, h5.trans h.arcCap,
          h8.trans h.stackCap, h6.trans h.flags, fun v => (h10 v).trans (h.index v)⟩
        intro x f hf
        obtain ⟨f1, f2, f3⟩ := mem_removeRot.1 hf
        rw [(h9 f f2 f3).1]
        exact h.nbr x f f1
      · show nextIn (L' v) e = 0 ∨ nextIn (L' v) e ∈ removeRot e L' v
        by_cases hz : nextIn (L' v) e = 0
        · exact .inl hz
        · have hm := nextIn_mem hz
          refine .inr (mem_removeRot.2 ⟨hm, nextIn_ne (h.inv.links.nodup v) h0, ?_⟩)
          intro hh
          rw [hh] at hm
          exact ha v e ((h.sub v).subset he) ((h.sub v).subset hm)

theorem deleteAll_spec (ha : ∀ x e, e ∈ L x → twin e ∉ L x) (h : Inv g0 L) :
    Ens ((List.range g0.N).foldlM (fun g i => do deleteLoop g.eSize g (← g.getArc (i + 1) false)) g0) fun g' => ∃ L', Cut g0 L g' L' := by
  refine Ens.fold _ ⟨L, .refl h⟩ fun g i ⟨L', h⟩ => ?_
  refine Ens.bind (getArc_val (i + 1) false) fun e ⟨hv, he⟩ => deleteLoop_spec ha (v := i + 1) _ e g L' h ?_
  rw [h.inv.links.vlink _ _ hv] at he
  cases hl : L' (i + 1) with
  | nil => rw [hl] at he; exact .inl he
  | cons a l => rw [hl] at he; rw [he]; exact .inr List.mem_cons_self

/-- What the isolation leaves: a graph of which edges have been deleted. -/
def Left (B : Base) (s : EGraph) : Prop :=
  ∃ s1 L L', Joined B s1 L (fun _ => []) ∧ s.p.VI = s1.p.VI ∧ Cut s1.p.g L s.p.g L'

theorem deleteUnmarked_spec (hB : NoLoop B) (S : Sorted s0 rot B num inv) (hI : PInv s0 rot) (h : Done B s) : Ok s.deleteUnmarked (Left B) := by
  unfold deleteUnmarked
  refine Ok.bind (putAll_spec hB h) fun s1 ⟨L, J⟩ => Ok.bind (deleteAll_spec J.part.lk.apart (J.pinv S hI).inv) fun g ⟨L', hc⟩ => ?_
  exact Ok.ret ⟨s1, L, L', J, rfl, hc⟩

theorem isolateKuratowski_spec (hB : NoLoop B) (S : Sorted s0 rot B num inv) (hI : PInv s0 rot) {v R : Nat} (hv : 1 ≤ v)
    {L fw : Nat → List Nat} (P : Part B s L fw) (I : Info B s v) : Ok (s.isolateKuratowski v R) (Left B) := by
  unfold isolateKuratowski
  refine Ok.bind (clearFlags_fr (A := B.A)) fun g hg => ?_
  have m := Mv.setG s hg
  refine Ok.both (chooseMinor_spec hB (P.mv m) (I.mv m) R) fun s1 ⟨L, fw, h1⟩ => ?_
  refine Ok.both (isolatorContext_spec h1 hv) fun s2 ⟨h2, hz⟩ => ?_
  exact Ok.both (Iso.isolateMinor hB h2 hz) fun s3 h3 => deleteUnmarked_spec hB S hI h3

theorem isolateOuter_spec (hB : NoLoop B) (S : Sorted s0 rot B num inv) (hI : PInv s0 rot) {v R : Nat} (hv : 1 ≤ v)
    {L fw : Nat → List Nat} (P : Part B s L fw) (I : Info B s v) : Ok (s.isolateOuter v R) (Left B) := by
  unfold isolateOuter
  refine Ok.bind (clearFlags_fr (A := B.A)) fun g hg => ?_
  have m := Mv.setG s hg
  refine Ok.both (chooseOuter_spec hB (P.mv m) (I.mv m) R) fun s1 ⟨L, fw, h1⟩ => ?_
  refine Ok.both (outerContext_spec h1 hv) fun s2 h2 => ?_
  refine Ok.both (outerPath_spec h2) fun s3 h3 => ?_
  exact Ok.both (IsoO.isolateMinor hB h3) fun s4 h4 => deleteUnmarked_spec hB S hI h4

end Verif.Isolate
