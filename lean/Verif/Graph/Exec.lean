import Verif.Graph.Sim
import Verif.Spec.EdgeStore

/-
Running lists of calls, and helper lemmas for the edge store property theorems.
-/
namespace Verif.Props
open Verif Verif.Graph Function

/-- Run a list of calls, collecting the results. -/
def exec (g : Graph) : List Op → Option (Graph × List Out)
  | [] => some (g, [])
  | op :: ops => do
      let (g', o) ← g.step op
      let (g'', os) ← exec g' ops
      return (g'', o :: os)

/-- Every call is valid at the moment it is made. -/
def ValidRun (g : Graph) : List Op → Prop
  | [] => True
  | op :: ops => g.Valid op ∧ ∀ g' o, g.step op = some (g', o) → ValidRun g' ops

/-! ## Helper: one simulated step -/

theorem sim_step {g rot T} (h : Sim g rot T) {op : Op} (hv : g.Valid op) :
    ∃ g' out rot' T', g.step op = some (g', out) ∧ SpecStep T op out T' ∧ Sim g' rot' T' ∧
      g'.N = g.N := by
  cases op with
  | add u ul v vl =>
    obtain ⟨⟨bu, hbu⟩, ⟨bv, hbv⟩⟩ := And.intro (linkOf_le hv.1) (linkOf_le hv.2)
    by_cases hok : (g.vertexOk u && g.vertexOk v) = true
    · rw [Bool.and_eq_true] at hok
      by_cases hM : g.M < g.arcCap / 2
      · have hu := vertexOk_iff.1 hok.1
        have hv' := vertexOk_iff.1 hok.2
        obtain ⟨g', rot', x, hg', hf, hS⟩ := h.put hM bu bv ⟨hu.1, hu.2.1⟩ ⟨hv'.1, hv'.2.1⟩
          (.inl rfl) (.inl rfl)
        obtain ⟨g'', hg'', _, _, hN, -⟩ := putEdge_spec h.inv hM bu bv ⟨hu.1, hu.2.1⟩
          ⟨hv'.1, hv'.2.1⟩ (.inl rfl) (.inl rfl)
        rw [hg'] at hg''; cases hg''
        refine ⟨g', .code .ok, rot', _, ?_, .addOk hf, hS, hN⟩
        simp only [Graph.step]
        rw [addEdge_spec hok.1 hok.2 hM hbu hbv, hg']; rfl
      · refine ⟨g, .code .nonembeddable, rot, T, ?_, .addFail (by simp), h, rfl⟩
        simp [Graph.step, addEdge, hok, Nat.not_lt.1 hM]
    · refine ⟨g, .code .notok, rot, T, ?_, .addFail (by simp), h, rfl⟩
      simp only [Graph.step, addEdge]
      rw [Bool.not_eq_true] at hok
      simp [hok]
  | insert u eu eul v ev evl =>
    by_cases hrng : !(g.vertexOk u && g.vertexOk v) ∨ eu > (g.inUse : Int) - 1 ∨ (eu < 2 ∧ eu ≠ 0) ∨
      ev > (g.inUse : Int) - 1 ∨ (ev < 2 ∧ ev ≠ 0) ∨ eul < 0 ∨ eul > 1 ∨ evl < 0 ∨ evl > 1
    · refine ⟨g, .code .notok, rot, T, ?_, .insFail (by simp), h, rfl⟩
      simp only [Graph.step, insertEdge]
      rw [if_pos hrng]; rfl
    · by_cases hM : g.M < g.arcCap / 2
      · simp only [not_or] at hrng
        obtain ⟨hok, _, _, _, _, h1, h2, h3, h4⟩ := hrng
        simp only [Bool.not_eq_true', Bool.not_eq_false, Bool.and_eq_true] at hok
        have hu := vertexOk_iff.1 hok.1
        have hv' := vertexOk_iff.1 hok.2
        obtain ⟨heu, hev⟩ := hv
        obtain ⟨au, rfl, hau⟩ : ∃ a : Nat, eu = a ∧ (a = 0 ∨ a ∈ rot u.toNat) := by
          rcases heu with rfl | ⟨a, rfl, ha⟩
          · exact ⟨0, rfl, .inl rfl⟩
          · exact ⟨a, rfl, .inr (h.inv.arcAt.1 ha)⟩
        obtain ⟨av, rfl, hav⟩ : ∃ a : Nat, ev = a ∧ (a = 0 ∨ a ∈ rot v.toNat) := by
          rcases hev with rfl | ⟨a, rfl, ha⟩
          · exact ⟨0, rfl, .inl rfl⟩
          · exact ⟨a, rfl, .inr (h.inv.arcAt.1 ha)⟩
        have hl : ∀ l : Int, ¬ l < 0 → ¬ l > 1 → ∃ b : Bool, l = if b then 1 else 0 := by
          intro l a b
          rcases (show l = 0 ∨ l = 1 by omega) with h | h
          · exact ⟨false, by simpa using h⟩
          · exact ⟨true, by simpa using h⟩
        obtain ⟨bu, rfl⟩ := hl eul h1 h2
        obtain ⟨bv, rfl⟩ := hl evl h3 h4
        obtain ⟨g', rot', x, hg', hf, hS⟩ := h.put hM bu bv ⟨hu.1, hu.2.1⟩ ⟨hv'.1, hv'.2.1⟩ hau hav
        obtain ⟨g'', hg'', _, _, hN, -⟩ := putEdge_spec h.inv hM bu bv ⟨hu.1, hu.2.1⟩
          ⟨hv'.1, hv'.2.1⟩ hau hav
        rw [hg'] at hg''; cases hg''
        refine ⟨g', .code .ok, rot', _, ?_, .insOk hf, hS, hN⟩
        simp only [Graph.step]
        rw [insertEdge_spec h.inv hok.1 hok.2 hM hau hav, hg']; rfl
      · refine ⟨g, .code .nonembeddable, rot, T, ?_, .insFail (by simp), h, rfl⟩
        simp only [Graph.step, insertEdge]
        rw [if_neg hrng, if_pos (Nat.not_lt.1 hM)]; rfl
  | delete e nl =>
    obtain ⟨b, hb⟩ := linkOf_le hv.1
    obtain ⟨v, hv'⟩ := hv.2
    obtain ⟨g', a, hg', hS⟩ := h.delete (h.inv.arcAt.1 hv') nl b hb
    obtain ⟨g'', hg'', _, _, hN, -⟩ := deleteEdge_spec h.inv (h.inv.arcAt.1 hv') nl b hb
    rw [hg'] at hg''; cases hg''
    exact ⟨g', _, _, _, by simp only [Graph.step]; rw [hg']; rfl, .del, hS, hN⟩
  | direct e d =>
    obtain ⟨v, hv'⟩ := hv
    obtain ⟨g', hg', hS⟩ := h.direct (h.inv.arcAt.1 hv') d
    obtain ⟨g'', hg'', _, hN, -⟩ := setDirection_spec h.inv (h.inv.arcAt.1 hv') d
    rw [hg'] at hg''; cases hg''
    exact ⟨g', _, _, _, by simp only [Graph.step]; rw [hg']; rfl, .dir, hS, hN⟩

theorem sim_matches {g rot T} (h : Sim g rot T) : Matches g T := by
  refine ⟨fun v h1 h2 => ?_, fun x a b ht => ?_⟩
  · have hv : v < g.vSize := by unfold vSize; omega
    exact ⟨rot v, walk_eq h.inv.links hv false, walk_eq h.inv.links hv true,
      h.inv.links.nodup v, h.mem v⟩
  · have h1 : x ∈ rot a := (h.mem a x).2 ⟨x, a, b, ht, .inl ⟨rfl, rfl⟩⟩
    have h2 : twin x ∈ rot b := (h.mem b _).2 ⟨x, a, b, ht, .inr ⟨rfl, rfl⟩⟩
    have hn := h.nbr ht
    have ha := h.inv.links.vert _ _ h1
    have hb := h.inv.links.vert _ _ h2
    refine ⟨?_, ?_, ha.1, ?_, hb.1, ?_⟩
    · rw [getNbr_eq (h.inv.links.arc _ _ h1).2, hn.1]
    · show g.getNbr (twin x) = some a
      rw [getNbr_eq (h.inv.links.arc _ _ h2).2, hn.2]
    · have := ha.2; unfold vSize at this; omega
    · have := hb.2; unfold vSize at this; omega

theorem exec_sim : ∀ (ops : List Op) {g rot T}, Sim g rot T → ValidRun g ops →
    ∃ g' outs T', exec g ops = some (g', outs) ∧ SpecRun T ops outs T' ∧
      (∃ rot', Sim g' rot' T') ∧ g'.N = g.N := by
  intro ops
  induction ops with
  | nil => intro g rot T h _; exact ⟨g, [], T, rfl, .nil, ⟨rot, h⟩, rfl⟩
  | cons op ops ih =>
    intro g rot T h hv
    obtain ⟨g1, o, rot1, T1, hs, hsp, hS, hN⟩ := sim_step h hv.1
    obtain ⟨g2, os, T2, he, hr, hS2, hN2⟩ := ih hS (hv.2 g1 o hs)
    refine ⟨g2, o :: os, T2, ?_, .cons hsp hr, hS2, by rw [hN2, hN]⟩
    simp only [exec, hs, Option.bind_eq_bind, Option.bind_some, he]
    rfl

theorem sim_init (N arcCap : Nat) (hc : arcCap % 2 = 0) :
    Sim (Graph.init N arcCap) (fun _ => []) [] :=
  ⟨Inv.init N arcCap hc, by simp, by simp, rfl⟩

/-! ### Executable validity check, used only for the concrete examples -/

def arcAtB (g : Graph) (v e : Nat) : Bool :=
  match g.walk false v with
  | some L => L.contains e
  | none => false

def validB (g : Graph) : Op → Bool
  | .add _ ul _ vl => decide (ul ≤ 1 ∧ vl ≤ 1)
  | .insert u eu _ v ev _ =>
      (eu == 0 || (decide (0 ≤ eu) && arcAtB g u.toNat eu.toNat)) &&
      (ev == 0 || (decide (0 ≤ ev) && arcAtB g v.toNat ev.toNat))
  | .delete e nl => decide (nl ≤ 1) && (List.range g.vSize).any fun v => arcAtB g v e
  | .direct e _ => (List.range g.vSize).any fun v => arcAtB g v e

def validRunB (g : Graph) : List Op → Bool
  | [] => true
  | op :: ops => validB g op &&
      match g.step op with
      | some (g', _) => validRunB g' ops
      | none => true

theorem arcAtB_sound {g : Graph} {v e : Nat} (h : arcAtB g v e = true) : g.ArcAt v e := by
  unfold arcAtB at h
  split at h
  · next L hL => exact ⟨L, hL, by simpa using h⟩
  · cases h

theorem validB_sound {g : Graph} {op : Op} (h : validB g op = true) : g.Valid op := by
  cases op with
  | add u ul v vl => simpa [validB, Valid] using h
  | insert u eu eul v ev evl =>
    have aux : ∀ {w : Int} {a : Int}, (a == 0 || (decide (0 ≤ a) && arcAtB g w.toNat a.toNat)) = true →
        (a = 0 ∨ ∃ n : Nat, a = n ∧ g.ArcAt w.toNat n) := by
      intro w a h
      simp only [Bool.or_eq_true, beq_iff_eq, Bool.and_eq_true, decide_eq_true_eq] at h
      rcases h with h | ⟨h0, h⟩
      · exact .inl h
      · exact .inr ⟨a.toNat, by omega, arcAtB_sound h⟩
    rw [validB, Bool.and_eq_true] at h
    exact ⟨aux h.1, aux h.2⟩
  | delete e nl =>
    simp only [validB, Bool.and_eq_true, decide_eq_true_eq, List.any_eq_true] at h
    obtain ⟨h1, v, _, h2⟩ := h
    exact ⟨h1, v, arcAtB_sound h2⟩
  | direct e d =>
    simp only [validB, List.any_eq_true] at h
    obtain ⟨v, _, h2⟩ := h
    exact ⟨v, arcAtB_sound h2⟩

theorem validRunB_sound : ∀ (ops : List Op) {g : Graph}, validRunB g ops = true → ValidRun g ops := by
  intro ops
  induction ops with
  | nil => intro g _; trivial
  | cons op ops ih =>
    intro g h
    rw [validRunB, Bool.and_eq_true] at h
    refine ⟨validB_sound h.1, fun g' o hs => ?_⟩
    rw [hs] at h
    exact ih h.2

theorem reach_exec {g : Graph} : ∀ (ops : List Op) {g0 : Graph} {outs},
    Reach g0 → ValidRun g0 ops → exec g0 ops = some (g, outs) → Reach g := by
  intro ops
  induction ops with
  | nil => intro g0 outs hr _ he; cases he; exact hr
  | cons op ops ih =>
    intro g0 outs hr hv he
    simp only [Props.exec, Option.bind_eq_bind] at he
    rcases hs : g0.step op with _ | ⟨g1, o⟩
    · simp [hs] at he
    · rw [hs, Option.bind_some] at he
      rcases hs2 : Props.exec g1 ops with _ | ⟨g2, os⟩
      · simp [hs2] at he
      · simp only [hs2, Option.bind_some, Option.pure_def, Option.some.injEq, Prod.mk.injEq] at he
        obtain ⟨rfl, _⟩ := he
        exact ih (hr.step hv.1 hs) (hv.2 _ _ hs) hs2

/-- A history with a parallel edge, a self loop, an insertion, deletions and a direction. -/
def sampleOps : List Op :=
  [.add 1 0 2 0, .add 2 1 1 0, .add 3 0 3 1, .insert 1 3 1 3 0 0, .delete 2 0, .direct 4 32,
   .add 9 0 1 0]

/-- The graph produced by `sampleOps`. -/
def sample : Graph := ((exec (Graph.init 3 18) sampleOps).map Prod.fst).getD (Graph.init 0 0)

theorem sample_valid : ValidRun (Graph.init 3 18) sampleOps := validRunB_sound _ (by decide +kernel)


/-! ### Translations used by the property theorems -/

theorem vSize_iff {g : Graph} {w : Nat} : IsVertex g w ↔ 1 ≤ w ∧ w < g.vSize := by
  unfold IsVertex vSize; omega

theorem hasList {g rot} (h : Links g rot) {w : Nat} (hw : w < g.vSize) : HasList g w (rot w) :=
  ⟨walk_eq h hw false, walk_eq h hw true⟩

theorem live_iff {g rot} (h : Inv g rot) {e : Nat} : Live g e ↔ ∃ w, e ∈ rot w :=
  ⟨fun ⟨w, hw⟩ => ⟨w, h.arcAt.1 hw⟩, fun ⟨w, hw⟩ => ⟨w, h.arcAt.2 hw⟩⟩

theorem placed_place {a l x : Nat} {b : Bool} {L : List Nat} (hb : linkOf l = some b)
    (ha : a = 0 ∨ a ∈ L) : Placed a l x L (place a b x L) := by
  have hl : l = 0 ∧ b = false ∨ l = 1 ∧ b = true := by
    rcases l with _ | _ | l
    · left; cases hb; exact ⟨rfl, rfl⟩
    · right; cases hb; exact ⟨rfl, rfl⟩
    · cases hb
  unfold place
  split
  · next h =>
    subst h
    rcases hl with ⟨rfl, rfl⟩ | ⟨rfl, rfl⟩
    · exact .front
    · exact .back
  · next h =>
    have hm := ha.resolve_left h
    clear ha
    have key : ∀ {L : List Nat}, a ∈ L → ∃ A B, L = A ++ a :: B ∧
        insertAfter a x L = A ++ a :: x :: B ∧ insertBefore a x L = A ++ x :: a :: B := by
      intro L
      induction L with
      | nil => intro h; cases h
      | cons y L ih =>
        intro hm
        by_cases hy : y = a
        · subst hy; exact ⟨[], L, rfl, by simp [insertAfter], by simp [insertBefore]⟩
        · obtain ⟨A, B, h1, h2, h3⟩ := ih ((List.mem_cons.1 hm).resolve_left (Ne.symm hy))
          exact ⟨y :: A, B, by rw [h1]; rfl, by rw [insertAfter, if_neg hy, h2]; rfl,
            by rw [insertBefore, if_neg hy, h3]; rfl⟩
    obtain ⟨A, B, h1, h2, h3⟩ := key hm
    unfold putNear
    rcases hl with ⟨rfl, rfl⟩ | ⟨rfl, rfl⟩
    · rw [if_neg (by simp), h2, h1]; exact .after h
    · rw [if_pos rfl, h3, h1]; exact .before h

theorem free_of_dead {g rot} (h : Inv g rot) {e : Nat} (he : ∀ w, e ∉ rot w) (h2 : 2 ≤ e) :
    Free g e := by
  by_cases hlt : e < g.inUse
  · rcases h.cover e h2 hlt with ⟨v, hv⟩ | hh
    · exact absurd hv (he v)
    · rcases hh with hh | hh
      · exact .inl hh
      · exact .inr (.inl hh)
  · exact .inr (.inr (Nat.not_lt.1 hlt))

theorem edgePlaced {g rot} (h : Inv g rot) (hM : g.M < g.arcCap / 2) {u eu v ev ul vl : Nat}
    {bu bv : Bool} (hbu : linkOf ul = some bu) (hbv : linkOf vl = some bv)
    (hu : 1 ≤ u ∧ u < g.vSize) (hv : 1 ≤ v ∧ v < g.vSize)
    (heu : eu = 0 ∨ eu ∈ rot u) (hev : ev = 0 ∨ ev ∈ rot v) :
    ∃ g' x, putEdge g.takeSlot.2 u eu bu v ev bv g.takeSlot.1 = some (g', .ok) ∧
      EdgePlaced g g' x u eu ul v ev vl := by
  obtain ⟨g', hg', hI, hM', hN, hA, hH, hF, hS, -, -, hnbr, hfl, hidx, hvf⟩ :=
    putEdge_spec h hM bu bv hu hv heu hev
  obtain ⟨hx2, hxe, hte, hxf, htf, -⟩ := takeSlot_spec h hM
  generalize hx : g.takeSlot.1 = y at *
  have hvs : g'.vSize = g.vSize := by simp [vSize, hN]
  have hes : g'.eSize = g.eSize := by simp [eSize, hA]
  have htt : twin (twin y) = y := twin_twin y
  have hz : ∀ e, (∀ w, e ∉ rot w) → (g.E e).flags = 0 := by
    intro e he; rw [h.zero e he]
  refine ⟨g', twin y, hg', ?_, ?_, ?_, ?_, ?_, hfl, ?_⟩
  · refine ⟨?_, ?_, free_of_dead h htf (two_le_twin hx2)⟩
    · rw [live_iff h]; exact fun ⟨w, hw⟩ => htf w hw
    · show ¬ Live g (twin (twin y))
      rw [live_iff h, htt]; exact fun ⟨w, hw⟩ => hxf w hw
  · intro w hw
    rw [vSize_iff] at hw
    refine ⟨rot w, if w = u then place eu bu (twin y) (rot u) else rot w,
      placeRot rot u eu bu v ev bv y w, hasList h.links hw.2, ?_, ?_,
      hasList hI.links (hvs ▸ hw.2)⟩
    · split
      · next hh => subst hh; exact placed_place hbu heu
      · rfl
    · show if w = v then Placed ev vl (twin (twin y)) _ _ else _
      rw [htt]
      unfold placeRot
      by_cases hwv : w = v
      · subst hwv
        rw [if_pos rfl]
        simp only [update_self]
        by_cases hwu : w = u
        · subst hwu
          rw [if_pos rfl, update_self]
          refine placed_place hbv ?_
          rcases hev with hev | hev
          · exact .inl hev
          · exact .inr ((mem_place heu).2 (.inr hev))
        · rw [if_neg hwu, update_of_ne hwu]
          exact placed_place hbv hev
      · rw [if_neg hwv]
        simp only [update_of_ne hwv]
        by_cases hwu : w = u
        · subst hwu; rw [if_pos rfl, update_self]
        · rw [if_neg hwu, update_of_ne hwu]
  · constructor
    · rw [getNbr_eq (by rw [hes]; exact hte), hnbr, if_neg (twin_ne y), if_pos rfl]
    · show g'.getNbr (twin (twin y)) = _
      rw [htt, getNbr_eq (by rw [hes]; exact hxe), hnbr, if_pos rfl]
  · constructor
    · simp [getDirection, rdE, hes, hte, hfl, hz _ htf]
    · show g'.getDirection (twin (twin y)) = _
      rw [htt]
      simp [getDirection, rdE, hes, hxe, hfl, hz _ hxf]
  · intro e he
    rw [live_iff h] at he
    obtain ⟨w, hw⟩ := he
    have har := (h.links.arc _ _ hw).2
    rw [getNbr_eq har, getNbr_eq (hes ▸ har), hnbr, if_neg, if_neg]
    · rintro rfl; exact htf _ hw
    · rintro rfl; exact hxf _ hw
  · exact ⟨hM', hN, hA, hF, hS, fun w => ⟨hidx w, hvf w⟩⟩

end Verif.Props
