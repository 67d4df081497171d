import Verif.Graph.Store
import Verif.Graph.CapacityLemmas
import Verif.Graph.Query

/-
Operation histories on the edge store: operations, when their arguments are valid, execution,
and the lemmas that the invariant holds after every history.
-/
namespace Verif
open Function
namespace Graph

/-- The public operations of the edge store. Integer arguments are C ints. -/
inductive Op where
  | add (u : Int) (ulink : Nat) (v : Int) (vlink : Nat)
  | insert (u eu eulink v ev evlink : Int)
  | delete (e nextLink : Nat)
  | direct (e d : Nat)

/-- What a call returns: a result code, or an arc (gp_DeleteEdge). -/
inductive Out where
  | code (r : Res)
  | arc (e : Nat)
  deriving DecidableEq

/-- Execute one operation. -/
def step (g : Graph) : Op → Option (Graph × Out)
  | .add u ul v vl => do let (g, r) ← g.addEdge u ul v vl; return (g, .code r)
  | .insert u eu eul v ev evl => do
      let (g, r) ← g.insertEdge u eu eul v ev evl; return (g, .code r)
  | .delete e nl => do let (g, a) ← g.deleteEdge e nl; return (g, .arc a)
  | .direct e d => do let g ← g.setDirection e d; return (g, .code .ok)

/-- Arc `e` is met when iterating over the adjacency list of `v`. -/
def ArcAt (g : Graph) (v e : Nat) : Prop := ∃ L, g.walk false v = some L ∧ e ∈ L

/-- The preconditions the C functions rely on: link indexes are 0 or 1 (gp_AddEdge and
gp_DeleteEdge do not check them), arcs passed to gp_InsertEdge are NIL or arcs of the list they
are used with, and an arc passed to gp_DeleteEdge or gp_SetDirection is an arc of the graph. -/
def Valid (g : Graph) : Op → Prop
  | .add _ ul _ vl => ul ≤ 1 ∧ vl ≤ 1
  | .insert u eu _ v ev _ =>
      (eu = 0 ∨ ∃ a : Nat, eu = a ∧ g.ArcAt u.toNat a) ∧
      (ev = 0 ∨ ∃ a : Nat, ev = a ∧ g.ArcAt v.toNat a)
  | .delete e nl => nl ≤ 1 ∧ ∃ v, g.ArcAt v e
  | .direct e _ => ∃ v, g.ArcAt v e

/-- Graphs reachable from an initialised graph by valid edge operations, capacity requests (with
any allocation failing, except that the edge array itself is not lost), reinitialisation,
assigning vertex index and flags or graph flags, and copying into a destination whose edge records beyond the
source's array are clear. -/
inductive Reach : Graph → Prop where
  | init (N arcCap : Nat) (hN : 0 < N) (hc : arcCap % 2 = 0) : Reach (Graph.init N arcCap)
  | step {g g' : Graph} {op : Op} {out : Out} : Reach g → g.Valid op → g.step op = some (g', out) →
      Reach g'
  | ensure {g : Graph} (req : Int) (a : Allocs) : Reach g →
      (g.ensureArcCapacity req a).edgesNull = false → Reach (g.ensureArcCapacity req a).g
  | reinit {g : Graph} : Reach g → Reach g.reinit
  | mark {g : Graph} (f k : Nat → Nat) : Reach g →
      Reach { g with V := fun v => { g.V v with index := f v, flags := k v } }
  | flag {g : Graph} (f : Nat) : Reach g → Reach { g with flags := f }
  | copy {d s g : Graph} : Reach d → Reach s → (∀ e, s.eSize ≤ e → d.E e = {}) → d.N = s.N →
      0 < s.N → 0 < s.arcCap → copyGraph d s = (g, .ok) → Reach g

theorem linkOf_le {n : Nat} (h : n ≤ 1) : ∃ b, linkOf n = some b := by
  rcases n with _ | _ | n
  · exact ⟨_, rfl⟩
  · exact ⟨_, rfl⟩
  · omega

theorem vertexOk_iff {g : Graph} {u : Int} :
    g.vertexOk u = true ↔ 1 ≤ u.toNat ∧ u.toNat < g.vSize ∧ 1 ≤ u := by
  simp only [vertexOk, Bool.and_eq_true, decide_eq_true_eq, vSize]
  omega

theorem Inv.arcAt {g rot} (h : Inv g rot) {v e : Nat} : g.ArcAt v e ↔ e ∈ rot v := by
  constructor
  · rintro ⟨L, hw, he⟩
    by_cases hv : v < g.vSize
    · rw [walk_eq h.links hv] at hw; cases hw; exact he
    · simp [walk, getArc, rdV, hv] at hw
  · intro he
    exact ⟨_, walk_eq h.links (h.links.vert v e he).2 false, he⟩

/-- gp_AddEdge on good arguments. -/
theorem addEdge_spec {g : Graph} {u v : Int} {ul vl : Nat} {bu bv : Bool}
    (hu : g.vertexOk u = true) (hv : g.vertexOk v = true) (hM : g.M < g.arcCap / 2)
    (hbu : linkOf ul = some bu) (hbv : linkOf vl = some bv) :
    g.addEdge u ul v vl = putEdge g.takeSlot.2 u.toNat 0 bu v.toNat 0 bv g.takeSlot.1 := by
  unfold addEdge putEdge
  simp only [hu, hv, Bool.and_self, Bool.not_true, Bool.false_eq_true, if_false, hbu, hbv,
    ge_iff_le, Nat.not_le.2 hM]
  rfl

theorem insertEdge_spec {g rot} (h : Inv g rot) {u v : Int} {eu ev : Nat} {bu bv : Bool}
    (hu : g.vertexOk u = true) (hv : g.vertexOk v = true) (hM : g.M < g.arcCap / 2)
    (heu : eu = 0 ∨ eu ∈ rot u.toNat) (hev : ev = 0 ∨ ev ∈ rot v.toNat) :
    g.insertEdge u eu (if bu then 1 else 0) v ev (if bv then 1 else 0) =
      putEdge g.takeSlot.2 u.toNat eu bu v.toNat ev bv g.takeSlot.1 := by
  have h1 : ∀ (e : Nat) w, e = 0 ∨ e ∈ rot w → ¬ ((e : Int) > (g.inUse : Int) - 1) ∧
      ¬ ((e : Int) < 2 ∧ (e : Int) ≠ 0) := by
    intro e w he
    have hin : 2 ≤ g.inUse := by unfold inUse; omega
    rcases he with rfl | he
    · constructor <;> omega
    · have := h.below w e he; have := (h.links.arc w e he).1
      constructor <;> omega
  have a := h1 _ _ heu
  have b := h1 _ _ hev
  unfold insertEdge putEdge
  simp only [hu, hv, Bool.and_self, Bool.not_true, Bool.false_eq_true, false_or, a.1, a.2, b.1, b.2,
    ge_iff_le, Nat.not_le.2 hM, if_false]
  cases bu <;> cases bv <;> simp [linkOf]

/-- The invariant does not depend on vertex data or on the flags of live arcs. -/
theorem Inv.congr {g g' : Graph} {rot} (h : Inv g rot) (hN : g'.N = g.N) (hM : g'.M = g.M)
    (hA : g'.arcCap = g.arcCap) (hH : g'.holes = g.holes) (hC : g'.holesCap = g.holesCap)
    (hV : ∀ v b, (g'.V v).link b = (g.V v).link b) (hE : ∀ e b, (g'.E e).link b = (g.E e).link b)
    (hB : ∀ e, (g'.E e).nbr = (g.E e).nbr) (hZ : ∀ e, (∀ v, e ∉ rot v) → g'.E e = g.E e) :
    Inv g' rot := by
  have hin : g'.inUse = g.inUse := by simp [inUse, hM, hH]
  constructor
  · exact h.links.congr hN hA hE hV
  · intro w a ha; rw [hB]; exact h.owner w a ha
  · intro w a ha; rw [hB]; exact h.twins w a ha
  · rw [hA]; exact h.even
  · rw [hA, hM, hH]; exact h.room
  · rw [hH, hin]; exact h.holeRange
  · rw [hH]; exact h.holeNodup
  · rw [hH, hin]; exact h.cover
  · rw [hin]; exact h.below
  · intro e he; rw [hZ e he]; exact h.zero e he
  · rw [hA, hC]; exact h.holesCap

theorem setDirection_spec {g rot} (h : Inv g rot) {v e : Nat} (he : e ∈ rot v) (d : Nat) :
    ∃ g', g.setDirection e d = some g' ∧ Inv g' rot ∧ g'.N = g.N ∧ g'.M = g.M ∧
      g'.arcCap = g.arcCap ∧ g'.holes = g.holes ∧ g'.V = g.V ∧
      (∀ a, (g'.E a).nbr = (g.E a).nbr) ∧
      (∀ a, a ≠ e → a ≠ twin e → g'.E a = g.E a) ∧
      (g'.E e).flags = (if d = INONLY then (g.E e).flags ||| INONLY
        else if d = OUTONLY then (g.E e).flags ||| OUTONLY else clearDir (g.E e).flags) ∧
      (g'.E (twin e)).flags = (if d = INONLY then (g.E (twin e)).flags ||| OUTONLY
        else if d = OUTONLY then (g.E (twin e)).flags ||| INONLY
        else clearDir (g.E (twin e)).flags) := by
  have har := h.links.arc _ _ he
  have ht := h.twins _ _ he
  have htr := h.links.arc _ _ ht
  have hne := twin_ne e
  unfold setDirection
  simp only [rdE, har.2, if_true, Option.bind_eq_bind, Option.bind_some]
  rw [wrE_eq har.2]
  simp only [Option.bind_some, updE_eSize, htr.2, if_true]
  rw [wrE_eq (by simpa using htr.2)]
  generalize hf : (if d = INONLY then (g.E e).flags ||| INONLY
        else if d = OUTONLY then (g.E e).flags ||| OUTONLY else clearDir (g.E e).flags) = f
  simp only [updE_E, hne, if_false]
  generalize hf' : (if d = INONLY then (g.E (twin e)).flags ||| OUTONLY
        else if d = OUTONLY then (g.E (twin e)).flags ||| INONLY
        else clearDir (g.E (twin e)).flags) = f'
  refine ⟨_, rfl, ?_, rfl, rfl, rfl, rfl, rfl, ?_, ?_, ?_, ?_⟩
  · refine h.congr rfl rfl rfl rfl rfl (fun _ _ => rfl) ?_ ?_ ?_
    · intro a b
      rw [updE_E, updE_E]
      split
      · next hh => rw [hh]; rfl
      · split
        · next hh => rw [hh]; rfl
        · rfl
    · intro a
      rw [updE_E, updE_E]
      split
      · next hh => rw [hh]
      · split
        · next hh => rw [hh]
        · rfl
    · intro a ha
      have h1 : a ≠ twin e := fun hh => ha _ (hh ▸ ht)
      have h2 : a ≠ e := fun hh => ha _ (hh ▸ he)
      rw [updE_E, if_neg h1, updE_E, if_neg h2]
  · intro a
    rw [updE_E, updE_E]
    split
    · next hh => rw [hh]
    · split
      · next hh => rw [hh]
      · rfl
  · intro a h1 h2
    rw [updE_E, if_neg h2, updE_E, if_neg h1]
  · rw [updE_E, if_neg (Ne.symm hne), updE_E, if_pos rfl]
  · rw [updE_E, if_pos rfl]

/-- Every valid operation runs without undefined behaviour and keeps the invariant. -/
theorem Inv.step {g rot} (h : Inv g rot) {op : Op} (hv : g.Valid op) :
    ∃ g' out rot', g.step op = some (g', out) ∧ Inv g' rot' := by
  cases op with
  | add u ul v vl =>
    obtain ⟨⟨bu, hbu⟩, ⟨bv, hbv⟩⟩ := And.intro (linkOf_le hv.1) (linkOf_le hv.2)
    by_cases hok : (g.vertexOk u && g.vertexOk v) = true
    · rw [Bool.and_eq_true] at hok
      by_cases hM : g.M < g.arcCap / 2
      · have hu := vertexOk_iff.1 hok.1
        have hv' := vertexOk_iff.1 hok.2
        obtain ⟨g', hg', hI, _⟩ := putEdge_spec h hM bu bv ⟨hu.1, hu.2.1⟩ ⟨hv'.1, hv'.2.1⟩
          (.inl rfl) (.inl rfl)
        refine ⟨g', .code .ok, _, ?_, hI⟩
        simp only [Graph.step]
        rw [addEdge_spec hok.1 hok.2 hM hbu hbv, hg']; rfl
      · refine ⟨g, .code .nonembeddable, rot, ?_, h⟩
        simp [Graph.step, addEdge, hok, Nat.not_lt.1 hM]
    · refine ⟨g, .code .notok, rot, ?_, h⟩
      simp only [Graph.step, addEdge]
      rw [Bool.not_eq_true] at hok
      simp [hok]
  | insert u eu eul v ev evl =>
    by_cases hrng : !(g.vertexOk u && g.vertexOk v) ∨ eu > (g.inUse : Int) - 1 ∨ (eu < 2 ∧ eu ≠ 0) ∨
      ev > (g.inUse : Int) - 1 ∨ (ev < 2 ∧ ev ≠ 0) ∨ eul < 0 ∨ eul > 1 ∨ evl < 0 ∨ evl > 1
    · refine ⟨g, .code .notok, rot, ?_, h⟩
      simp only [Graph.step, insertEdge]
      rw [if_pos hrng]; rfl
    · by_cases hM : g.M < g.arcCap / 2
      · simp only [not_or] at hrng
        obtain ⟨hok, _, _, _, _, h1, h2, h3, h4⟩ := hrng
        simp only [Bool.not_eq_true', Bool.not_eq_false, Bool.and_eq_true] at hok
        have hu := vertexOk_iff.1 hok.1
        have hv' := vertexOk_iff.1 hok.2
        obtain ⟨heu, hev⟩ := hv
        obtain ⟨au, rfl, hau⟩ : ∃ a : Nat, eu = a ∧ (a = 0 ∨ a ∈ rot u.toNat) := by
          rcases heu with rfl | ⟨a, rfl, ha⟩
          · exact ⟨0, rfl, .inl rfl⟩
          · exact ⟨a, rfl, .inr (h.arcAt.1 ha)⟩
        obtain ⟨av, rfl, hav⟩ : ∃ a : Nat, ev = a ∧ (a = 0 ∨ a ∈ rot v.toNat) := by
          rcases hev with rfl | ⟨a, rfl, ha⟩
          · exact ⟨0, rfl, .inl rfl⟩
          · exact ⟨a, rfl, .inr (h.arcAt.1 ha)⟩
        have hl : ∀ l : Int, ¬ l < 0 → ¬ l > 1 → ∃ b : Bool, l = if b then 1 else 0 := by
          intro l a b
          rcases (show l = 0 ∨ l = 1 by omega) with h | h
          · exact ⟨false, by simpa using h⟩
          · exact ⟨true, by simpa using h⟩
        obtain ⟨bu, rfl⟩ := hl eul h1 h2
        obtain ⟨bv, rfl⟩ := hl evl h3 h4
        obtain ⟨g', hg', hI, _⟩ := putEdge_spec h hM bu bv ⟨hu.1, hu.2.1⟩ ⟨hv'.1, hv'.2.1⟩ hau hav
        refine ⟨g', .code .ok, _, ?_, hI⟩
        simp only [Graph.step]
        rw [insertEdge_spec h hok.1 hok.2 hM hau hav, hg']; rfl
      · refine ⟨g, .code .nonembeddable, rot, ?_, h⟩
        simp only [Graph.step, insertEdge]
        rw [if_neg hrng, if_pos (Nat.not_lt.1 hM)]; rfl
  | delete e nl =>
    obtain ⟨b, hb⟩ := linkOf_le hv.1
    obtain ⟨v, hv'⟩ := hv.2
    obtain ⟨g', hg', hI, _⟩ := deleteEdge_spec h (h.arcAt.1 hv') nl b hb
    exact ⟨g', _, _, by simp only [Graph.step]; rw [hg']; rfl, hI⟩
  | direct e d =>
    obtain ⟨v, hv'⟩ := hv
    obtain ⟨g', hg', hI, -⟩ := setDirection_spec h (h.arcAt.1 hv') d
    exact ⟨g', _, _, by simp only [Graph.step]; rw [hg']; rfl, hI⟩

theorem Reach.inv {g : Graph} (h : Reach g) : ∃ rot, Inv g rot := by
  induction h with
  | init N c _ hc => exact ⟨_, Inv.init N c hc⟩
  | step _ hv hs ih =>
    obtain ⟨rot, hI⟩ := ih
    obtain ⟨g', out, rot', h1, h2⟩ := hI.step hv
    rw [hs] at h1; cases h1
    exact ⟨rot', h2⟩
  | ensure req a _ he ih => obtain ⟨rot, h⟩ := ih; exact ⟨rot, h.ensure req a he⟩
  | reinit _ ih => obtain ⟨rot, h⟩ := ih; exact ⟨_, h.reinit⟩
  | mark f k _ ih => obtain ⟨rot, h⟩ := ih; exact ⟨rot, h.mark f k⟩
  | flag f _ ih => obtain ⟨rot, h⟩ := ih; exact ⟨rot, h.congr rfl rfl rfl rfl rfl (fun _ _ => rfl) (fun _ _ => rfl) (fun _ => rfl) (fun _ _ => rfl)⟩
  | copy _ _ hcl hN hN0 hc hg ih1 ih2 =>
    obtain ⟨rotd, hd⟩ := ih1; obtain ⟨rots, hs⟩ := ih2
    exact ⟨rots, hd.copy hs hcl hN hN0 hc hg⟩

end Graph
end Verif
