import Verif.Graph.Exec

/-
Two graphs that agree on everything the edge operations can see behave alike: used for
reinitialised and copied graphs.
-/
namespace Verif
open Function
namespace Graph

/-- `d` looks like `g` to every edge operation that `g` can perform; its arc capacity is larger
by `c`. -/
structure Agree (c : Nat) (g d : Graph) : Prop where
  N : d.N = g.N
  M : d.M = g.M
  flags : d.flags = g.flags
  holes : d.holes = g.holes
  arcCap : d.arcCap = g.arcCap + c
  room : g.arcCap / 2 ≤ d.holesCap
  vlink : ∀ v, v < g.vSize → ∀ b, (d.V v).link b = (g.V v).link b
  vdata : ∀ v, 1 ≤ v → v < g.vSize → (d.V v).index = (g.V v).index ∧ (d.V v).flags = (g.V v).flags
  E : ∀ e, e < g.eSize → d.E e = g.E e

theorem Agree.vSize {c g d} (h : Agree c g d) : d.vSize = g.vSize := by simp [Graph.vSize, h.N]
theorem Agree.eSize {c g d} (h : Agree c g d) : g.eSize ≤ d.eSize := by
  have := h.arcCap; unfold Graph.eSize; omega
theorem Agree.inUse {c g d} (h : Agree c g d) : d.inUse = g.inUse := by
  simp [Graph.inUse, h.M, h.holes]
theorem Agree.vertexOk {c g d} (h : Agree c g d) (u) : d.vertexOk u = g.vertexOk u := by
  simp [Graph.vertexOk, h.N]

def Lifts (c : Nat) (x y : Option Graph) : Prop := ∀ g', x = some g' → ∃ d', y = some d' ∧ Agree c g' d'

theorem Lifts.bind {c : Nat} {x y : Option Graph} {f k : Graph → Option Graph} (h : Lifts c x y)
    (hf : ∀ g d, Agree c g d → Lifts c (f g) (k d)) : Lifts c (x.bind f) (y.bind k) := by
  intro g' hg
  obtain ⟨g1, h1, h2⟩ := Option.bind_eq_some_iff.1 hg
  obtain ⟨d1, h3, h4⟩ := h g1 h1
  obtain ⟨d', h5, h6⟩ := hf g1 d1 h4 g' h2
  exact ⟨d', by rw [h3]; exact h5, h6⟩

theorem Lifts.read {c : Nat} {α} {x y : Option α} {f k : α → Option Graph} (h : ∀ r, x = some r → y = some r)
    (hf : ∀ r, Lifts c (f r) (k r)) : Lifts c (x.bind f) (y.bind k) := by
  intro g' hg
  obtain ⟨r, h1, h2⟩ := Option.bind_eq_some_iff.1 hg
  obtain ⟨d', h5, h6⟩ := hf r g' h2
  exact ⟨d', by rw [h r h1]; exact h5, h6⟩

theorem Agree.rdE {c g d} (h : Agree c g d) {e r} (hr : g.rdE e = some r) : d.rdE e = some r := by
  unfold Graph.rdE at *
  split at hr
  · next he =>
    rw [if_pos (by have := h.eSize; omega), h.E e he]; exact hr
  · exact absurd hr (by simp)

theorem Agree.getAdj {c g d} (h : Agree c g d) {e b} : ∀ r, g.getAdj e b = some r → d.getAdj e b = some r := by
  intro r hr
  unfold Graph.getAdj at *
  rcases he : g.rdE e with _ | x
  · rw [he] at hr; exact absurd hr (by simp)
  · rw [he] at hr; rw [h.rdE he]; exact hr
theorem Agree.getNbr {c g d} (h : Agree c g d) {e} : ∀ r, g.getNbr e = some r → d.getNbr e = some r := by
  intro r hr
  unfold Graph.getNbr at *
  rcases he : g.rdE e with _ | x
  · rw [he] at hr; exact absurd hr (by simp)
  · rw [he] at hr; rw [h.rdE he]; exact hr
theorem Agree.getArc {c g d} (h : Agree c g d) {v b} : ∀ r, g.getArc v b = some r → d.getArc v b = some r := by
  intro r hr
  by_cases hv : v < g.vSize
  · rw [getArc_eq hv] at hr; rw [getArc_eq (by rw [h.vSize]; exact hv), h.vlink v hv]; exact hr
  · simp [Graph.getArc, Graph.rdV, hv] at hr

theorem Agree.updE {c g d} (h : Agree c g d) (e f) : Agree c (g.updE e f) (d.updE e f) := by
  refine ⟨h.N, h.M, h.flags, h.holes, h.arcCap, h.room, h.vlink, h.vdata, fun a ha => ?_⟩
  rw [updE_E, updE_E]
  split
  · next hh => subst hh; rw [h.E _ ha]
  · exact h.E _ ha

theorem Agree.setArcV {c g d} (h : Agree c g d) (v b x) :
    Agree c (g.updV v (·.setLink b x)) (d.updV v (·.setLink b x)) := by
  refine ⟨h.N, h.M, h.flags, h.holes, h.arcCap, h.room, fun w hw c => ?_, fun w h1 hw => ?_, h.E⟩
  · rw [updV_V, updV_V]; split
    · next hh => subst hh; rw [VRec.link_setLink, VRec.link_setLink, h.vlink _ hw]
    · exact h.vlink w hw c
  · rw [updV_V, updV_V]; split
    · next hh => subst hh; simpa using h.vdata _ h1 hw
    · exact h.vdata w h1 hw

theorem Agree.wrE {c g d} (h : Agree c g d) (e r) : Lifts c (g.wrE e r) (d.wrE e r) := by
  intro g' hg
  by_cases he : e < g.eSize
  · rw [wrE_eq he] at hg; cases hg
    exact ⟨_, wrE_eq (by have := h.eSize; omega) r, h.updE _ _⟩
  · simp [Graph.wrE, he] at hg
theorem Agree.setAdj {c g d} (h : Agree c g d) (e b x) : Lifts c (g.setAdj e b x) (d.setAdj e b x) :=
  Lifts.read (fun _ hr => h.rdE hr) fun _ => h.wrE _ _
theorem Agree.setNbr {c g d} (h : Agree c g d) (e x) : Lifts c (g.setNbr e x) (d.setNbr e x) :=
  Lifts.read (fun _ hr => h.rdE hr) fun _ => h.wrE _ _
theorem Agree.setArc {c g d} (h : Agree c g d) (v b x) : Lifts c (g.setArc v b x) (d.setArc v b x) := by
  intro g' hg
  by_cases hv : v < g.vSize
  · rw [setArc_eq hv] at hg; cases hg
    exact ⟨_, setArc_eq (by rw [h.vSize]; exact hv) b x, h.setArcV _ _ _⟩
  · simp [Graph.setArc, Graph.rdV, hv] at hg

theorem Lifts.ite {c : Nat} {p : Prop} [Decidable p] {a b a' b' : Option Graph} (h1 : p → Lifts c a a')
    (h2 : ¬ p → Lifts c b b') : Lifts c (if p then a else b) (if p then a' else b') := by
  by_cases h : p
  · rw [if_pos h, if_pos h]; exact h1 h
  · rw [if_neg h, if_neg h]; exact h2 h

theorem Agree.attachArc {c g d} (h : Agree c g d) (v e b x) :
    Lifts c (g.attachArc v e b x) (d.attachArc v e b x) := by
  unfold Graph.attachArc
  refine Lifts.ite (fun _ => ?_) (fun _ => ?_)
  · refine Lifts.read h.getAdj fun e2 => ?_
    refine Lifts.bind (h.setAdj _ _ _) fun g d h => ?_
    refine Lifts.bind (h.setAdj _ _ _) fun g d h => ?_
    refine Lifts.bind (h.setAdj _ _ _) fun g d h => ?_
    exact Lifts.ite (fun _ => h.setAdj _ _ _) (fun _ => h.setArc _ _ _)
  · refine Lifts.read h.getArc fun e2 => ?_
    refine Lifts.bind (h.setArc _ _ _) fun g d h => ?_
    refine Lifts.bind (h.setAdj _ _ _) fun g d h => ?_
    refine Lifts.bind (h.setAdj _ _ _) fun g d h => ?_
    exact Lifts.ite (fun _ => h.setAdj _ _ _) (fun _ => h.setArc _ _ _)

theorem Agree.detachArc {c g d} (h : Agree c g d) (e) : Lifts c (g.detachArc e) (d.detachArc e) := by
  unfold Graph.detachArc
  refine Lifts.read h.getAdj fun nx => ?_
  refine Lifts.read h.getAdj fun pv => ?_
  have tail : ∀ g d, Agree c g d → Lifts c
      (if pv ≠ 0 then g.setAdj pv false nx else do g.setArc (← g.getNbr (twin e)) false nx)
      (if pv ≠ 0 then d.setAdj pv false nx else do d.setArc (← d.getNbr (twin e)) false nx) := by
    intro g d h
    exact Lifts.ite (fun _ => h.setAdj _ _ _) (fun _ => Lifts.read h.getNbr fun _ => h.setArc _ _ _)
  by_cases hn : nx ≠ 0
  · simp only [if_pos hn]
    exact Lifts.bind (h.setAdj _ _ _) tail
  · simp only [if_neg hn]
    exact Lifts.read h.getNbr fun _ => Lifts.bind (h.setArc _ _ _) tail

/-- `Lifts` for calls that also return a value. -/
def LiftsR {α} (c : Nat) (x y : Option (Graph × α)) : Prop :=
  ∀ g' r, x = some (g', r) → ∃ d', y = some (d', r) ∧ Agree c g' d'

theorem LiftsR.bind {α} {c : Nat} {x y : Option Graph} {f k : Graph → Option (Graph × α)}
    (h : Lifts c x y) (hf : ∀ g d, Agree c g d → LiftsR c (f g) (k d)) :
    LiftsR c (x.bind f) (y.bind k) := by
  intro g' r hg
  obtain ⟨g1, h1, h2⟩ := Option.bind_eq_some_iff.1 hg
  obtain ⟨d1, h3, h4⟩ := h g1 h1
  obtain ⟨d', h5, h6⟩ := hf g1 d1 h4 g' r h2
  exact ⟨d', by rw [h3]; exact h5, h6⟩
theorem LiftsR.read {α β} {c : Nat} {x y : Option β} {f k : β → Option (Graph × α)}
    (h : ∀ r, x = some r → y = some r) (hf : ∀ r, LiftsR c (f r) (k r)) :
    LiftsR c (x.bind f) (y.bind k) := by
  intro g' s hg
  obtain ⟨r, h1, h2⟩ := Option.bind_eq_some_iff.1 hg
  obtain ⟨d', h5, h6⟩ := hf r g' s h2
  exact ⟨d', by rw [h r h1]; exact h5, h6⟩
theorem LiftsR.ret {α} {c : Nat} {g d : Graph} (h : Agree c g d) (r : α) :
    LiftsR c (some (g, r)) (some (d, r)) := by
  intro g' s hg; cases hg; exact ⟨d, rfl, h⟩

theorem Agree.putEdge {c g d} (h : Agree c g d) (u eu bu v ev bv x) :
    LiftsR c (putEdge g u eu bu v ev bv x) (putEdge d u eu bu v ev bv x) := by
  unfold Graph.putEdge
  refine LiftsR.bind (h.setNbr _ _) fun g d h => ?_
  refine LiftsR.bind (h.attachArc _ _ _ _) fun g d h => ?_
  refine LiftsR.bind (h.setNbr _ _) fun g d h => ?_
  refine LiftsR.bind (h.attachArc _ _ _ _) fun g d h => ?_
  exact LiftsR.ret (g := { g with M := g.M + 1 }) (d := { d with M := d.M + 1 })
    ⟨h.N, by simp [h.M], h.flags, h.holes, h.arcCap, h.room, h.vlink, h.vdata, h.E⟩ _

theorem Agree.takeSlot {c g d} (h : Agree c g d) :
    d.takeSlot.1 = g.takeSlot.1 ∧ Agree c g.takeSlot.2 d.takeSlot.2 := by
  unfold Graph.takeSlot
  rw [h.holes, h.inUse]
  cases g.holes with
  | nil => exact ⟨rfl, h⟩
  | cons a l => exact ⟨rfl, h.N, h.M, h.flags, rfl, h.arcCap, h.room, h.vlink, h.vdata, h.E⟩

theorem Agree.addEdge {c g d} (h : Agree c g d) {u ul v vl g' r}
    (hs : g.addEdge u ul v vl = some (g', r)) (hr : r ≠ .nonembeddable ∨ c = 0) :
    ∃ d', d.addEdge u ul v vl = some (d', r) ∧ Agree c g' d' := by
  unfold Graph.addEdge at *
  rw [h.vertexOk, h.vertexOk, h.M]
  split at hs
  · next hc => rw [if_pos hc]; exact LiftsR.ret h _ _ _ hs
  · next hc =>
    rw [if_neg hc]
    split at hs
    · next hM =>
      cases hs
      rcases hr with hr | hr
      · exact absurd rfl hr
      · rw [if_pos (by rw [h.arcCap, hr]; exact hM)]; exact ⟨d, rfl, h⟩
    · next hM =>
      rw [if_neg (by rw [h.arcCap]; omega)]
      refine LiftsR.read (fun _ hh => hh) (fun bu => ?_) _ _ hs
      refine LiftsR.read (fun _ hh => hh) (fun bv => ?_)
      obtain ⟨h1, h2⟩ := h.takeSlot
      simp only [h1]
      exact h2.putEdge _ _ _ _ _ _ _

theorem Agree.insertEdge {c g d} (h : Agree c g d) {u eu eul v ev evl g' r}
    (hs : g.insertEdge u eu eul v ev evl = some (g', r)) (hr : r ≠ .nonembeddable ∨ c = 0) :
    ∃ d', d.insertEdge u eu eul v ev evl = some (d', r) ∧ Agree c g' d' := by
  unfold Graph.insertEdge at *
  simp only at hs ⊢
  rw [h.vertexOk, h.vertexOk, h.M, h.inUse]
  split at hs
  · next hc => rw [if_pos hc]; exact LiftsR.ret h _ _ _ hs
  · next hc =>
    rw [if_neg hc]
    split at hs
    · next hM =>
      cases hs
      rcases hr with hr | hr
      · exact absurd rfl hr
      · rw [if_pos (by rw [h.arcCap, hr]; exact hM)]; exact ⟨d, rfl, h⟩
    · next hM =>
      rw [if_neg (by rw [h.arcCap]; omega)]
      refine LiftsR.read (fun _ hh => hh) (fun bu => ?_) _ _ hs
      refine LiftsR.read (fun _ hh => hh) (fun bv => ?_)
      obtain ⟨h1, h2⟩ := h.takeSlot
      simp only [h1]
      exact h2.putEdge _ _ _ _ _ _ _

theorem Agree.setDirection {c g d} (h : Agree c g d) (e x) :
    Lifts c (g.setDirection e x) (d.setDirection e x) := by
  unfold Graph.setDirection
  refine Lifts.read (fun _ hr => h.rdE hr) fun r => ?_
  refine Lifts.bind (h.wrE _ _) fun g d h => ?_
  refine Lifts.read (fun _ hr => h.rdE hr) fun r => ?_
  exact h.wrE _ _

theorem Agree.deleteEdge {c g d rot} (h : Agree c g d) (hI : Inv g rot) {v e nl g' r}
    (he : e ∈ rot v) (hs : g.deleteEdge e nl = some (g', r)) :
    ∃ d', d.deleteEdge e nl = some (d', r) ∧ Agree c g' d' := by
  have hpos := hI.pos he
  have hroom := hI.room
  unfold Graph.deleteEdge at *
  have main : ∀ g1 d1 : Graph, Agree c g1 d1 → g1.holes = g.holes → g1.arcCap = g.arcCap →
      ∀ a : Nat, LiftsR c
      (if e < { g1 with M := g1.M - 1 }.inUse then
        if g1.holes.length < g1.holesCap then
          some ({ g1 with M := g1.M - 1, holes := e :: g1.holes }, a) else none
        else some ({ g1 with M := g1.M - 1 }, a))
      (if e < { d1 with M := d1.M - 1 }.inUse then
        if d1.holes.length < d1.holesCap then
          some ({ d1 with M := d1.M - 1, holes := e :: d1.holes }, a) else none
        else some ({ d1 with M := d1.M - 1 }, a)) := by
    intro g1 d1 h1 hh hc a g' r hs
    have hin : { d1 with M := d1.M - 1 }.inUse = { g1 with M := g1.M - 1 }.inUse := by
      simp [Graph.inUse, h1.M, h1.holes]
    rw [hin]
    have hm : d1.M - 1 = g1.M - 1 := by rw [h1.M]
    split at hs
    · next hi =>
      rw [if_pos hi]
      split at hs
      · cases hs
        refine ⟨_, by rw [if_pos (by rw [h1.holes, hh]; have := h1.room; omega)], ?_⟩
        exact ⟨h1.N, hm, h1.flags, by simp [h1.holes], h1.arcCap, h1.room, h1.vlink, h1.vdata, h1.E⟩
      · exact absurd hs (by simp)
    · next hi =>
      rw [if_neg hi]
      cases hs
      exact ⟨_, rfl, h1.N, hm, h1.flags, h1.holes, h1.arcCap, h1.room, h1.vlink, h1.vdata, h1.E⟩
  obtain ⟨b, hb, hs⟩ := Option.bind_eq_some_iff.1 hs
  obtain ⟨nx, hnx, hs⟩ := Option.bind_eq_some_iff.1 hs
  obtain ⟨g1, h1, hs⟩ := Option.bind_eq_some_iff.1 hs
  obtain ⟨g2, h2, hs⟩ := Option.bind_eq_some_iff.1 hs
  obtain ⟨g3, h3, hs⟩ := Option.bind_eq_some_iff.1 hs
  obtain ⟨g4, h4, hs⟩ := Option.bind_eq_some_iff.1 hs
  obtain ⟨d1, k1, A1⟩ := h.detachArc e g1 h1
  obtain ⟨d2, k2, A2⟩ := A1.detachArc (twin e) g2 h2
  obtain ⟨d3, k3, A3⟩ := A2.wrE e _ g3 h3
  obtain ⟨d4, k4, A4⟩ := A3.wrE (twin e) _ g4 h4
  obtain ⟨g2', hg2', -, hsame, -⟩ := hideEdge_spec hI.links hI.owner he (hI.twins v e he)
  have : g.hideEdge e = some g2 := by
    unfold Graph.hideEdge; rw [h1]; exact h2
  rw [this] at hg2'; cases hg2'
  have hw : ∀ {x y : Graph} {a r}, x.wrE a r = some y → y.holes = x.holes ∧ y.arcCap = x.arcCap := by
    intro x y a r hh
    unfold Graph.wrE at hh
    split at hh
    · cases hh; exact ⟨rfl, rfl⟩
    · exact absurd hh (by simp)
  obtain ⟨d', hd', hA⟩ := main g4 d4 A4 (by rw [(hw h4).1, (hw h3).1, hsame.holes])
    (by rw [(hw h4).2, (hw h3).2, hsame.arcCap]) nx g' r hs
  refine ⟨d', ?_, hA⟩
  simp only [Option.bind_eq_bind, hb, Option.bind_some, h.getAdj _ hnx, k1, k2, k3, k4]
  exact hd'

/-- Every valid edge operation has the same result on both graphs, as long as the smaller one is
not full. -/
theorem Agree.step {c g d rot} (h : Agree c g d) (hI : Inv g rot) {op : Op} (hv : g.Valid op) {g' o}
    (hs : g.step op = some (g', o)) (ho : o ≠ .code .nonembeddable ∨ c = 0) :
    ∃ d', d.step op = some (d', o) ∧ Agree c g' d' := by
  cases op with
  | add u ul v vl =>
    simp only [Graph.step] at hs ⊢
    obtain ⟨⟨g1, r⟩, h1, h2⟩ := Option.bind_eq_some_iff.1 hs
    cases h2
    obtain ⟨d', hd, hA⟩ := h.addEdge h1 (ho.imp_left fun hh hr => hh (by rw [hr]))
    exact ⟨d', by rw [hd]; rfl, hA⟩
  | insert u eu eul v ev evl =>
    simp only [Graph.step] at hs ⊢
    obtain ⟨⟨g1, r⟩, h1, h2⟩ := Option.bind_eq_some_iff.1 hs
    cases h2
    obtain ⟨d', hd, hA⟩ := h.insertEdge h1 (ho.imp_left fun hh hr => hh (by rw [hr]))
    exact ⟨d', by rw [hd]; rfl, hA⟩
  | delete e nl =>
    simp only [Graph.step] at hs ⊢
    obtain ⟨⟨g1, r⟩, h1, h2⟩ := Option.bind_eq_some_iff.1 hs
    cases h2
    obtain ⟨w, hw⟩ := hv.2
    obtain ⟨d', hd, hA⟩ := h.deleteEdge hI (hI.arcAt.1 hw) h1
    exact ⟨d', by rw [hd]; rfl, hA⟩
  | direct e x =>
    simp only [Graph.step] at hs ⊢
    obtain ⟨g1, h1, h2⟩ := Option.bind_eq_some_iff.1 hs
    cases h2
    obtain ⟨d', hd, hA⟩ := h.setDirection e x _ h1
    exact ⟨d', by rw [hd]; rfl, hA⟩

theorem walkFrom_mono {g d : Graph} {c : Nat} (h : Agree c g d) (b : Bool) :
    ∀ (f k e : Nat) (L : List Nat), g.walkFrom b f e = some L → f ≤ k → d.walkFrom b k e = some L := by
  intro f
  induction f with
  | zero =>
    intro k e L hL _
    simp only [walkFrom] at hL
    split at hL
    · next he => cases hL; cases k <;> simp [walkFrom, he]
    · exact absurd hL (by simp)
  | succ f ih =>
    intro k e L hL hk
    obtain ⟨k, rfl⟩ : ∃ k', k = k' + 1 := ⟨k - 1, by omega⟩
    simp only [walkFrom] at hL ⊢
    split at hL
    · next he => cases hL; simp [he]
    · next he =>
      rw [if_neg he]
      obtain ⟨x, h1, h2⟩ := Option.bind_eq_some_iff.1 hL
      obtain ⟨r, h3, h4⟩ := Option.bind_eq_some_iff.1 h2
      simp only [Option.bind_eq_bind, h.getAdj _ h1, Option.bind_some, ih k x r h3 (by omega)]
      exact h4

/-- Walking meets the same lists. -/
theorem Agree.walk {c g d} (h : Agree c g d) {b v L} (hL : g.walk b v = some L) :
    d.walk b v = some L := by
  unfold Graph.walk at *
  obtain ⟨x, h1, h2⟩ := Option.bind_eq_some_iff.1 hL
  simp only [Option.bind_eq_bind, h.getArc _ h1, Option.bind_some]
  exact walkFrom_mono h b _ _ _ _ h2 h.eSize

end Graph

namespace Props
open Graph

/-- Running the same calls on two agreeing graphs gives the same results. -/
theorem agree_exec : ∀ (ops : List Op) {c g d rot}, Agree c g d → Inv g rot → ValidRun g ops →
    ∀ {g' outs}, exec g ops = some (g', outs) → (Out.code .nonembeddable ∉ outs ∨ c = 0) →
    ∃ d', exec d ops = some (d', outs) ∧ Agree c g' d' ∧ ∃ rot', Inv g' rot' := by
  intro ops
  induction ops with
  | nil =>
    intro c g d rot h hI _ g' outs he _
    simp only [exec] at he; cases he
    exact ⟨d, rfl, h, rot, hI⟩
  | cons op ops ih =>
    intro c g d rot h hI hv g' outs he ho
    simp only [exec] at he
    obtain ⟨⟨g1, o⟩, h1, he⟩ := Option.bind_eq_some_iff.1 he
    obtain ⟨⟨g2, os⟩, h2, he⟩ := Option.bind_eq_some_iff.1 he
    cases he
    obtain ⟨g1', o', rot1, h3, hI1⟩ := hI.step hv.1
    rw [h1] at h3; cases h3
    obtain ⟨d1, hd1, hA1⟩ := h.step hI hv.1 h1 (ho.imp_left fun hh hr => hh (by simp [hr]))
    obtain ⟨d2, hd2, hA2, hI2⟩ := ih hA1 hI1 (hv.2 _ _ h1) h2
      (ho.imp_left fun hh hr => hh (List.mem_cons_of_mem _ hr))
    refine ⟨d2, ?_, hA2, hI2⟩
    simp only [exec, hd1, hd2, Option.bind_eq_bind, Option.bind_some]
    rfl

end Props
end Verif
