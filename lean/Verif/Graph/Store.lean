import Verif.Graph.Links
import Mathlib.Data.List.Perm.Basic
import Mathlib.Data.List.Range

/-
The edge-store invariant and its preservation by adding, inserting and deleting edges.
-/
namespace Verif
open Function
namespace Graph

/-- Insert relative to arc `a` (NIL: at the end given by the link). -/
def place (a : Nat) (b : Bool) (x : Nat) (L : List Nat) : List Nat :=
  if a = 0 then putEnd b x L else putNear a b x L

theorem mem_place {a b x L} (ha : a = 0 ∨ a ∈ L) {y : Nat} : y ∈ place a b x L ↔ y = x ∨ y ∈ L := by
  unfold place; split
  · exact mem_putEnd
  · next h => exact mem_putNear (ha.resolve_left h)

/-- The invariant of the edge store, relative to the represented lists. -/
structure Inv (g : Graph) (rot : Nat → List Nat) : Prop where
  links : Links g rot
  owner : ∀ v e, e ∈ rot v → (g.E (twin e)).nbr = v
  twins : ∀ v e, e ∈ rot v → twin e ∈ rot (g.E e).nbr
  even : g.arcCap % 2 = 0
  room : g.M + g.holes.length ≤ g.arcCap / 2
  holeRange : ∀ h ∈ g.holes, 2 ≤ h ∧ h < g.inUse ∧ ∀ v, h ∉ rot v
  holeNodup : (g.holes.map (· / 2)).Nodup
  cover : ∀ e, 2 ≤ e → e < g.inUse → (∃ v, e ∈ rot v) ∨ e ∈ g.holes ∨ twin e ∈ g.holes
  below : ∀ v e, e ∈ rot v → e < g.inUse
  zero : ∀ e, (∀ v, e ∉ rot v) → g.E e = {}
  holesCap : g.arcCap / 2 ≤ g.holesCap

theorem inUse_even (g : Graph) : g.inUse % 2 = 0 := by unfold inUse; omega
theorem Inv.inUse_le {g rot} (h : Inv g rot) : g.inUse ≤ g.eSize := by
  have := h.room; have := h.even; unfold inUse eSize; omega
theorem Inv.twin_not {g rot} (h : Inv g rot) {e : Nat} (he : ∀ v, e ∉ rot v) (v) :
    twin e ∉ rot v := by
  intro hh
  have := h.twins v _ hh
  rw [twin_twin] at this; exact he _ this
theorem twin_div (e : Nat) : twin e / 2 = e / 2 := by rw [twin_eq]; split <;> omega
theorem div_eq_cases {a b : Nat} (h : a / 2 = b / 2) : a = b ∨ a = twin b := by
  rw [twin_eq]; split <;> omega

theorem Inv.init (N arcCap : Nat) (h : arcCap % 2 = 0) : Inv (Graph.init N arcCap) (fun _ => []) := by
  constructor <;> try (intros; simp_all [Graph.init]; done)
  · constructor <;> try (intros; simp_all)
    · intro v b _; cases b <;> simp [Graph.init, VRec.link, endIn]
  · intro e h2 h3; simp [Graph.init, Graph.inUse] at h3; omega

theorem attachArc_place {g : Graph} {rot : Nat → List Nat} (hL : Links g rot) {v a x : Nat}
    (b : Bool) (ha : a = 0 ∨ a ∈ rot v)
    (hv : 1 ≤ v ∧ v < g.vSize) (hx : 2 ≤ x ∧ x < g.eSize) (hfresh : ∀ w, x ∉ rot w) :
    ∃ g', g.attachArc v a b x = some g' ∧ Links g' (update rot v (place a b x (rot v))) ∧
      SameBut g g' ∧ (∀ e, e ≠ x → (∀ w, e ∉ rot w) → g'.E e = g.E e) := by
  by_cases h : a = 0
  · subst h; simp only [place, if_true]; exact attachArc_nil hL b hv hx hfresh
  · simp only [place, h, if_false]; exact attachArc_arc hL b (ha.resolve_left h) hx hfresh

/-- `Links` looks only at the sizes and at the link fields. -/
theorem Links.congr {g g' : Graph} {rot} (h : Links g rot) (hN : g'.N = g.N)
    (hA : g'.arcCap = g.arcCap) (hE : ∀ e b, (g'.E e).link b = (g.E e).link b)
    (hV : ∀ v b, (g'.V v).link b = (g.V v).link b) : Links g' rot := by
  have hv : g'.vSize = g.vSize := by simp [vSize, hN]
  have he : g'.eSize = g.eSize := by simp [eSize, hA]
  constructor
  · intro v b hh; rw [hV, h.vlink v b (hv ▸ hh)]
  · intro v b e hh; rw [hE, h.elink v b e hh]
  · exact h.nodup
  · rw [he]; exact h.arc
  · rw [hv]; exact h.vert
  · exact h.disj

theorem links_setNbr {g : Graph} {rot} (h : Links g rot) (e v : Nat) :
    Links (g.updE e (fun r => { r with nbr := v })) rot := by
  refine h.congr (g' := g.updE e _) rfl rfl ?_ ?_
  · intro e' b; rw [updE_E]; split <;> rfl
  · intro v b; rfl

/-- The lists after placing a new edge whose arcs are `twin x` (at `u`) and `x` (at `v`). -/
def placeRot (rot : Nat → List Nat) (u eu : Nat) (bu : Bool) (v ev : Nat) (bv : Bool) (x : Nat) :
    Nat → List Nat :=
  let rot1 := update rot u (place eu bu (twin x) (rot u))
  update rot1 v (place ev bv x (rot1 v))

theorem mem_placeRot {rot : Nat → List Nat} {u eu bu v ev bv x} (hu : eu = 0 ∨ eu ∈ rot u)
    (hv : ev = 0 ∨ ev ∈ rot v) {e w : Nat} :
    e ∈ placeRot rot u eu bu v ev bv x w ↔
      (e = twin x ∧ w = u) ∨ (e = x ∧ w = v) ∨ e ∈ rot w := by
  unfold placeRot
  by_cases hwv : w = v
  · subst hwv
    rw [update_self, mem_place]
    · by_cases hwu : w = u
      · subst hwu; rw [update_self, mem_place hu]; simp; tauto
      · rw [update_of_ne hwu]; simp [hwu]
    · rcases hv with h | h
      · exact .inl h
      · right
        by_cases hwu : w = u
        · subst hwu; rw [update_self, mem_place hu]; exact .inr h
        · rw [update_of_ne hwu]; exact h
  · rw [update_of_ne hwv]
    by_cases hwu : w = u
    · subst hwu; rw [update_self, mem_place hu]; simp [hwv]
    · rw [update_of_ne hwu]; simp [hwu, hwv]

/-- The common tail of gp_AddEdge and gp_InsertEdge. -/
def putEdge (g : Graph) (u eu : Nat) (bu : Bool) (v ev : Nat) (bv : Bool) (vpos : Nat) :
    Option (Graph × Res) := do
  let g ← g.setNbr (twin vpos) v
  let g ← g.attachArc u eu bu (twin vpos)
  let g ← g.setNbr vpos u
  let g ← g.attachArc v ev bv vpos
  return ({ g with M := g.M + 1 }, .ok)

theorem takeSlot_spec {g : Graph} {rot} (h : Inv g rot) (hM : g.M < g.arcCap / 2) :
    let x := g.takeSlot.1; let g1 := g.takeSlot.2
    2 ≤ x ∧ x < g.eSize ∧ twin x < g.eSize ∧ (∀ w, x ∉ rot w) ∧ (∀ w, twin x ∉ rot w) ∧
    g1 = { g with holes := g1.holes } ∧ x ∉ g1.holes ∧ twin x ∉ g1.holes ∧
    x < 2 + (g.M + 1 + g1.holes.length) * 2 ∧
    (∀ e, e ∈ g.holes ∨ twin e ∈ g.holes → e = x ∨ e = twin x ∨ e ∈ g1.holes ∨ twin e ∈ g1.holes) ∧
    (∀ e ∈ g1.holes, e ∈ g.holes) ∧ (g1.holes.map (· / 2)).Nodup ∧
    g.inUse ≤ 2 + (g.M + 1 + g1.holes.length) * 2 ∧
    (∀ e, g.inUse ≤ e → e < 2 + (g.M + 1 + g1.holes.length) * 2 → e = x ∨ e = twin x) ∧
    g.M + 1 + g1.holes.length ≤ g.arcCap / 2 := by
  have hle := h.inUse_le
  have heven := h.even
  have hie := inUse_even g
  have hroom := h.room
  have hR := h.holeRange
  have hND := h.holeNodup
  have hes : g.eSize % 2 = 0 := by unfold eSize; omega
  unfold takeSlot
  cases hh : g.holes with
  | nil =>
    simp only
    have hx : g.inUse = 2 + g.M * 2 := by simp [inUse, hh]
    have hxe : g.inUse < g.eSize := by rw [hx]; unfold eSize; omega
    have hnot : ∀ w, g.inUse ∉ rot w := fun w hw => by have := h.below w _ hw; omega
    have ht : twin g.inUse = g.inUse + 1 := by rw [twin_eq, if_pos hie]
    refine ⟨by omega, hxe, twin_lt hxe hes, hnot, fun w hw => ?_, ?_, ?_, ?_, ?_, ?_, ?_, ?_, ?_,
      ?_, ?_⟩
    · have := h.below w _ hw; rw [ht] at this; omega
    · trivial
    · simp [hh]
    · simp [hh]
    · simp [hh]; omega
    · simp
    · intro e; simp [hh]
    · simp [hh]
    · simp [hh]; omega
    · intro e h1 h2; simp [hh] at h2; omega
    · simp [hh]; omega
  | cons x hs =>
    have hx := hR x (by simp [hh])
    rw [hh] at hND
    simp only [List.map_cons, List.nodup_cons, List.mem_map, not_exists, not_and] at hND
    have hlen : 2 + (g.M + 1 + hs.length) * 2 = g.inUse := by simp [inUse, hh]; omega
    simp only
    rw [hlen]
    refine ⟨hx.1, by omega, twin_lt (by omega) hes, hx.2.2, fun w => h.twin_not hx.2.2 w, trivial, ?_, ?_,
      hx.2.1, ?_, ?_, hND.2, Nat.le_refl _, ?_, ?_⟩
    · intro hm; exact hND.1 x hm rfl
    · intro hm; exact hND.1 _ hm (twin_div x)
    · intro e he
      simp only [List.mem_cons] at he
      rcases he with (rfl | he) | (he | he)
      · exact .inl rfl
      · exact .inr (.inr (.inl he))
      · exact .inr (.inl (twin_eq_iff.1 he))
      · exact .inr (.inr (.inr he))
    · intro e he; exact List.mem_cons_of_mem _ he
    · intro e h1 h2; omega
    · rw [hh] at hroom; simp at hroom; omega

theorem putEdge_spec {g : Graph} {rot} (h : Inv g rot) (hM : g.M < g.arcCap / 2)
    {u eu v ev : Nat} (bu bv : Bool) (hu : 1 ≤ u ∧ u < g.vSize) (hv : 1 ≤ v ∧ v < g.vSize)
    (heu : eu = 0 ∨ eu ∈ rot u) (hev : ev = 0 ∨ ev ∈ rot v) :
    ∃ g', putEdge g.takeSlot.2 u eu bu v ev bv g.takeSlot.1 = some (g', .ok) ∧
      Inv g' (placeRot rot u eu bu v ev bv g.takeSlot.1) ∧ g'.M = g.M + 1 ∧ g'.N = g.N ∧
      g'.arcCap = g.arcCap ∧ g'.holes = g.takeSlot.2.holes ∧ g'.flags = g.flags ∧
      g'.stack = g.stack ∧ g'.stackCap = g.stackCap ∧ g'.holesCap = g.holesCap ∧
      (∀ e, (g'.E e).nbr = if e = g.takeSlot.1 then u else if e = twin g.takeSlot.1 then v
        else (g.E e).nbr) ∧ (∀ e, (g'.E e).flags = (g.E e).flags) ∧
      (∀ w, (g'.V w).index = (g.V w).index) ∧ (∀ w, (g'.V w).flags = (g.V w).flags) := by
  obtain ⟨hx2, hxe, hte, hxf, htf, hg1, hxh, hth, hxu, hcov, hsub, hnd, hmono, hnew, hroom'⟩ :=
    takeSlot_spec h hM
  generalize g.takeSlot.1 = x at *
  generalize g.takeSlot.2 = g1 at *
  have htx := twin_ne x
  have hes : g.eSize % 2 = 0 := by have := h.even; unfold eSize; omega
  have hL1 : Links g1 rot := by
    rw [hg1]; exact h.links.congr rfl rfl (fun _ _ => rfl) (fun _ _ => rfl)
  have hsz : g1.eSize = g.eSize := by rw [hg1]; rfl
  have hvz : g1.vSize = g.vSize := by rw [hg1]; rfl
  unfold putEdge
  rw [setNbr_eq (by rw [hsz]; exact hte)]
  simp only [Option.bind_eq_bind, Option.bind_some]
  have hL2 := links_setNbr hL1 (twin x) v
  obtain ⟨g3, hg3, hL3, hs3, hz3⟩ := attachArc_place hL2 (v := u) (a := eu) (x := twin x) bu heu
    (by simpa [hvz] using hu) (by simpa [hsz] using ⟨two_le_twin hx2, hte⟩) htf
  rw [hg3]
  simp only [Option.bind_some]
  have hsz3 : g3.eSize = g.eSize := by rw [hs3.eSize]; simpa using hsz
  have hvz3 : g3.vSize = g.vSize := by rw [hs3.vSize]; simpa using hvz
  rw [setNbr_eq (by rw [hsz3]; exact hxe)]
  simp only [Option.bind_some]
  have hL4 := links_setNbr hL3 x u
  obtain ⟨g5, hg5, hL5, hs5, hz5⟩ := attachArc_place hL4 (v := v) (a := ev) (x := x) bv
    (by
      rcases hev with h | h
      · exact .inl h
      · right
        by_cases hvu : v = u
        · subst hvu; rw [update_self, mem_place heu]; exact .inr h
        · rw [update_of_ne hvu]; exact h)
    (by simpa [hvz3] using hv) (by simpa [hsz3] using ⟨hx2, hxe⟩)
    (by
      intro w
      by_cases hwu : w = u
      · subst hwu; rw [update_self, mem_place heu]
        rintro (hh | hh)
        · exact htx hh.symm
        · exact hxf _ hh
      · rw [update_of_ne hwu]; exact hxf w)
  rw [hg5]
  simp only [Option.bind_some]
  have hnbr : ∀ e, (g5.E e).nbr = if e = x then u else if e = twin x then v else (g.E e).nbr := by
    intro e
    rw [hs5.nbr, updE_E]
    by_cases he : e = x
    · simp [he]
    · rw [if_neg he, hs3.nbr, updE_E]
      simp only [he, if_false]
      by_cases he' : e = twin x
      · simp [he']
      · simp only [he', if_false]; rw [hg1]
  have hfl : ∀ e, (g5.E e).flags = (g.E e).flags := by
    intro e
    rw [hs5.eflags, updE_E]
    have : (g3.E e).flags = (g.E e).flags := by
      rw [hs3.eflags, updE_E]
      split <;> (rw [hg1])
    split <;> exact this
  have hmem : ∀ e w, e ∈ placeRot rot u eu bu v ev bv x w ↔
      (e = twin x ∧ w = u) ∨ (e = x ∧ w = v) ∨ e ∈ rot w := fun e w => mem_placeRot heu hev
  have hN5 : g5.N = g.N := by rw [hs5.N]; show g3.N = _; rw [hs3.N]; show g1.N = _; rw [hg1]
  have hA5 : g5.arcCap = g.arcCap := by
    rw [hs5.arcCap]; show g3.arcCap = _; rw [hs3.arcCap]; show g1.arcCap = _; rw [hg1]
  have hM5 : g5.M = g.M := by rw [hs5.M]; show g3.M = _; rw [hs3.M]; show g1.M = _; rw [hg1]
  have hH5 : g5.holes = g1.holes := by rw [hs5.holes]; show g3.holes = _; rw [hs3.holes]; rfl
  have hC5 : g5.holesCap = g.holesCap := by
    rw [hs5.holesCap]; show g3.holesCap = _; rw [hs3.holesCap]; show g1.holesCap = _; rw [hg1]
  refine ⟨_, rfl, ?_, ?_, hN5, hA5, hH5, ?_, ?_, ?_, hC5, hnbr, hfl, ?_, ?_⟩
  · have hin : ({ g5 with M := g5.M + 1 } : Graph).inUse = 2 + (g.M + 1 + g1.holes.length) * 2 := by
      simp [inUse, hM5, hH5]
    constructor
    · exact hL5.congr rfl rfl (fun _ _ => rfl) (fun _ _ => rfl)
    · intro w e he
      show (g5.E (twin e)).nbr = w
      rw [hnbr]
      rcases (hmem e w).1 he with ⟨rfl, rfl⟩ | ⟨rfl, rfl⟩ | he
      · simp
      · simp [htx]
      · have h1 : twin e ≠ x := fun hh => htf w (by rw [← hh, twin_twin]; exact he)
        have h2 : twin e ≠ twin x := fun hh => hxf w (by rw [← twin_inj hh]; exact he)
        rw [if_neg h1, if_neg h2]; exact h.owner w e he
    · intro w e he
      show twin e ∈ placeRot rot u eu bu v ev bv x (g5.E e).nbr
      rw [hnbr, hmem]
      rcases (hmem e w).1 he with ⟨rfl, rfl⟩ | ⟨rfl, rfl⟩ | he
      · simp [htx]
      · simp
      · have h1 : e ≠ x := fun hh => hxf w (hh ▸ he)
        have h2 : e ≠ twin x := fun hh => htf w (hh ▸ he)
        rw [if_neg h1, if_neg h2]
        exact .inr (.inr (h.twins w e he))
    · show g5.arcCap % 2 = 0; rw [hA5]; exact h.even
    · show g5.M + 1 + g5.holes.length ≤ g5.arcCap / 2
      rw [hM5, hH5, hA5]; exact hroom'
    · intro e he
      have he : e ∈ g1.holes := hH5 ▸ he
      obtain ⟨a, b, c⟩ := h.holeRange e (hsub e he)
      rw [hin]
      refine ⟨a, by omega, fun w hw => ?_⟩
      rcases (hmem e w).1 hw with ⟨rfl, rfl⟩ | ⟨rfl, rfl⟩ | hw
      · exact hth he
      · exact hxh he
      · exact c w hw
    · show (g5.holes.map (· / 2)).Nodup; rw [hH5]; exact hnd
    · intro e he2 heu'
      rw [hin] at heu'
      show _ ∨ e ∈ g5.holes ∨ twin e ∈ g5.holes
      rw [hH5]
      by_cases hlt : e < g.inUse
      · rcases h.cover e he2 hlt with ⟨w, hw⟩ | hh
        · exact .inl ⟨w, (hmem e w).2 (.inr (.inr hw))⟩
        · rcases hcov e hh with rfl | rfl | hh | hh
          · exact .inl ⟨v, (hmem _ _).2 (.inr (.inl ⟨rfl, rfl⟩))⟩
          · exact .inl ⟨u, (hmem _ _).2 (.inl ⟨rfl, rfl⟩)⟩
          · exact .inr (.inl hh)
          · exact .inr (.inr hh)
      · rcases hnew e (by omega) heu' with rfl | rfl
        · exact .inl ⟨v, (hmem _ _).2 (.inr (.inl ⟨rfl, rfl⟩))⟩
        · exact .inl ⟨u, (hmem _ _).2 (.inl ⟨rfl, rfl⟩)⟩
    · intro w e he
      rw [hin]
      rcases (hmem e w).1 he with ⟨rfl, rfl⟩ | ⟨rfl, rfl⟩ | hw
      · exact twin_lt hxu (by omega)
      · exact hxu
      · have := h.below w e hw; omega
    · intro e he
      have hex : e ≠ x := fun hh => he v ((hmem _ _).2 (.inr (.inl ⟨hh, rfl⟩)))
      have het : e ≠ twin x := fun hh => he u ((hmem _ _).2 (.inl ⟨hh, rfl⟩))
      have hr : ∀ w, e ∉ rot w := fun w hw => he w ((hmem _ _).2 (.inr (.inr hw)))
      show g5.E e = {}
      rw [hz5 e hex, updE_E, if_neg hex, hz3 e het hr, updE_E, if_neg het, hg1]
      · exact h.zero e hr
      · intro w
        by_cases hwu : w = u
        · subst hwu; rw [update_self, mem_place heu]; rintro (hh | hh)
          · exact het hh
          · exact hr _ hh
        · rw [update_of_ne hwu]; exact hr w
    · show g5.arcCap / 2 ≤ g5.holesCap; rw [hA5, hC5]; exact h.holesCap
  · show g5.M + 1 = _; rw [hM5]
  · show g5.flags = _; rw [hs5.flags]; show g3.flags = _; rw [hs3.flags]; show g1.flags = _; rw [hg1]
  · show g5.stack = _; rw [hs5.stack]; show g3.stack = _; rw [hs3.stack]; show g1.stack = _; rw [hg1]
  · show g5.stackCap = _; rw [hs5.stackCap]; show g3.stackCap = _; rw [hs3.stackCap]
    show g1.stackCap = _; rw [hg1]
  · intro w; show (g5.V w).index = _; rw [hs5.index]; show (g3.V w).index = _; rw [hs3.index]
    show (g1.V w).index = _; rw [hg1]
  · intro w; show (g5.V w).flags = _; rw [hs5.vflags]; show (g3.V w).flags = _; rw [hs3.vflags]
    show (g1.V w).flags = _; rw [hg1]

/-! ### Counting -/

/-- All arcs of all lists. -/
def allArcs (g : Graph) (rot : Nat → List Nat) : List Nat := (List.range g.vSize).flatMap rot

theorem mem_allArcs {g rot} (hL : Links g rot) {e : Nat} : e ∈ allArcs g rot ↔ ∃ v, e ∈ rot v := by
  unfold allArcs
  simp only [List.mem_flatMap, List.mem_range]
  exact ⟨fun ⟨v, _, h⟩ => ⟨v, h⟩, fun ⟨v, h⟩ => ⟨v, (hL.vert _ _ h).2, h⟩⟩

theorem nodup_allArcs {g rot} (hL : Links g rot) : (allArcs g rot).Nodup := by
  unfold allArcs
  rw [List.nodup_flatMap]
  refine ⟨fun v _ => hL.nodup v, ?_⟩
  apply List.Nodup.pairwise_of_forall_ne List.nodup_range
  intro a _ b _ hab e ha hb
  exact hab (hL.disj _ _ _ ha hb)

theorem Inv.perm {g rot} (h : Inv g rot) :
    (allArcs g rot ++ (g.holes ++ g.holes.map twin)).Perm
      (List.range' 2 ((g.M + g.holes.length) * 2)) := by
  rw [List.perm_ext_iff_of_nodup]
  · intro e
    simp only [List.mem_append, mem_allArcs h.links, List.mem_map, List.mem_range'_1]
    have hin : 2 + (g.M + g.holes.length) * 2 = g.inUse := rfl
    rw [hin]
    constructor
    · rintro (⟨v, hv⟩ | hh | ⟨a, ha, rfl⟩)
      · exact ⟨(h.links.arc v e hv).1, h.below v e hv⟩
      · exact ⟨(h.holeRange e hh).1, (h.holeRange e hh).2.1⟩
      · exact ⟨two_le_twin (h.holeRange a ha).1, twin_lt (h.holeRange a ha).2.1 (inUse_even g)⟩
    · rintro ⟨h1, h2⟩
      rcases h.cover e h1 h2 with h | h | h
      · exact .inl h
      · exact .inr (.inl h)
      · exact .inr (.inr ⟨_, h, twin_twin e⟩)
  · have hnd : g.holes.Nodup := List.Nodup.of_map _ h.holeNodup
    rw [List.nodup_append]
    refine ⟨nodup_allArcs h.links, ?_, ?_⟩
    · rw [List.nodup_append]
      refine ⟨hnd, hnd.map (fun a b hab => twin_inj hab), ?_⟩
      intro a ha b hb
      rintro rfl
      obtain ⟨c, hc, hca⟩ := List.mem_map.1 hb
      have := List.inj_on_of_nodup_map h.holeNodup ha hc (by rw [← hca, twin_div])
      subst this
      exact twin_ne _ hca
    · intro a ha b hb
      rintro rfl
      obtain ⟨v, hv⟩ := (mem_allArcs h.links).1 ha
      rcases List.mem_append.1 hb with hb | hb
      · exact (h.holeRange a hb).2.2 v hv
      · obtain ⟨c, hc, rfl⟩ := List.mem_map.1 hb
        exact h.twin_not (h.holeRange c hc).2.2 v hv
  · exact List.nodup_range'

/-- The number of arcs in all lists is twice the edge count. -/
theorem Inv.count {g rot} (h : Inv g rot) : (allArcs g rot).length = 2 * g.M := by
  have := h.perm.length_eq
  simp at this
  omega

theorem Inv.pos {g rot} (h : Inv g rot) {v e : Nat} (he : e ∈ rot v) : 1 ≤ g.M := by
  have h1 := h.count
  have h2 : e ∈ allArcs g rot := (mem_allArcs h.links).2 ⟨v, he⟩
  have : 0 < (allArcs g rot).length := List.length_pos_of_mem h2
  omega

/-! ### Deletion -/

/-- The lists after removing the edge whose arcs are `x` and `twin x`. -/
def removeRot (x : Nat) (rot : Nat → List Nat) : Nat → List Nat :=
  fun w => (rot w).filter (fun e => e ≠ x ∧ e ≠ twin x)

theorem mem_removeRot {x rot} {e w : Nat} :
    e ∈ removeRot x rot w ↔ e ∈ rot w ∧ e ≠ x ∧ e ≠ twin x := by simp [removeRot]

theorem removeRot_eq {rot : Nat → List Nat} {x v w : Nat}
    (hx : ∀ u, x ∈ rot u → u = v) (ht : ∀ u, twin x ∈ rot u → u = w) :
    update (update rot v (without x (rot v))) w
      (without (twin x) (update rot v (without x (rot v)) w)) = removeRot x rot := by
  have h1 : update rot v (without x (rot v)) = fun u => without x (rot u) := by
    funext u
    by_cases h : u = v
    · subst h; rw [update_self]
    · rw [update_of_ne h, without_of_not_mem (fun hh => h (hx u hh))]
  rw [h1]
  funext u
  have h2 : removeRot x rot u = without (twin x) (without x (rot u)) := by
    simp only [removeRot, without, List.filter_filter]
    congr 1; funext e; simp; rw [Bool.and_comm]
  rw [h2]
  by_cases h : u = w
  · subst h; rw [update_self]
  · have hnm : twin x ∉ without x (rot u) := by
      rw [mem_without]; rintro ⟨hh, _⟩; exact h (ht u hh)
    rw [update_of_ne h, without_of_not_mem hnm]

/-- Hiding an edge removes it from the lists; restoring it gives back the same state. -/
theorem hideEdge_spec {g : Graph} {rot : Nat → List Nat} (hL : Links g rot)
    (hown : ∀ v e, e ∈ rot v → (g.E (twin e)).nbr = v) {v w x : Nat} (hx : x ∈ rot v)
    (ht : twin x ∈ rot w) :
    ∃ g', g.hideEdge x = some g' ∧ Links g' (removeRot x rot) ∧ SameBut g g' ∧
      (∀ e, (∀ u, e ∉ rot u) → g'.E e = g.E e) ∧ g'.restoreEdge x = some g ∧ g'.E x = g.E x := by
  have hxr := hL.arc _ _ hx
  have htr := hL.arc _ _ ht
  obtain ⟨g1, hg1, hL1, hs1, hz1, hx1, hr1⟩ := detachArc_spec hL hx htr.2 (hown v x hx)
  have ht1 : twin x ∈ update rot v (without x (rot v)) w := by
    by_cases h : w = v
    · subst h; rw [update_self, mem_without]; exact ⟨ht, twin_ne x⟩
    · rw [update_of_ne h]; exact ht
  obtain ⟨g2, hg2, hL2, hs2, hz2, _, hr2⟩ := detachArc_spec hL1 ht1
    (by rw [hs1.eSize, twin_twin]; exact hxr.2)
    (by rw [hs1.nbr, twin_twin]
        have := hown w _ ht; rwa [twin_twin] at this)
  refine ⟨g2, ?_, ?_, hs1.trans hs2, ?_, ?_, ?_⟩
  · unfold hideEdge; rw [hg1]; exact hg2
  · rw [removeRot_eq (fun u hu => hL.disj _ _ _ hu hx) (fun u hu => hL.disj _ _ _ hu ht)] at hL2
    exact hL2
  · intro e he
    rw [hz2 e, hz1 e he]
    intro u
    by_cases h : u = v
    · subst h; rw [update_self, mem_without]; exact fun hh => he _ hh.1
    · rw [update_of_ne h]; exact he u
  · unfold restoreEdge; rw [hr2]; exact hr1
  · rw [hz2 x, hx1]
    intro u
    by_cases h : u = v
    · subst h; rw [update_self, mem_without]; exact fun hh => hh.2 rfl
    · rw [update_of_ne h]; exact fun hh => h (hL.disj _ _ _ hh hx)

theorem wrE_eq {g : Graph} {e} (h : e < g.eSize) (r) : g.wrE e r = some (g.updE e (fun _ => r)) := by
  simp [wrE, h, updE]

theorem deleteEdge_spec {g : Graph} {rot} (h : Inv g rot) {x v : Nat} (hx : x ∈ rot v) (nl : Nat)
    (b : Bool) (hb : linkOf nl = some b) :
    ∃ g', g.deleteEdge x nl = some (g', nextIn (dir b (rot v)) x) ∧ Inv g' (removeRot x rot) ∧
      g'.M + 1 = g.M ∧ g'.N = g.N ∧ g'.arcCap = g.arcCap ∧ g'.flags = g.flags ∧
      g'.stack = g.stack ∧ g'.stackCap = g.stackCap ∧ g'.holesCap = g.holesCap ∧
      (g'.holes = g.holes ∧ x / 2 = g.M + g.holes.length ∨ g'.holes = x :: g.holes) ∧
      (∀ e, e ≠ x → e ≠ twin x → (g'.E e).nbr = (g.E e).nbr ∧ (g'.E e).flags = (g.E e).flags) ∧
      (∀ w, (g'.V w).index = (g.V w).index) ∧ (∀ w, (g'.V w).flags = (g.V w).flags) := by
  have hxr := h.links.arc _ _ hx
  have ht := h.twins v x hx
  have htr := h.links.arc _ _ ht
  have hM := h.pos hx
  have hxu := h.below _ _ hx
  have hie := inUse_even g
  obtain ⟨g2, hg2, hL2, hs2, hz2, _⟩ := hideEdge_spec h.links h.owner hx ht
  unfold deleteEdge
  rw [hb]
  simp only [Option.bind_eq_bind, Option.bind_some]
  rw [getAdj_eq hxr.2, h.links.elink v b x hx]
  simp only [Option.bind_some]
  have : (g.detachArc x).bind (fun g => g.detachArc (twin x)) = some g2 := hg2
  obtain ⟨g1, h1, h1'⟩ := Option.bind_eq_some_iff.1 this
  rw [h1]; simp only [Option.bind_some]
  rw [h1']; simp only [Option.bind_some]
  rw [wrE_eq (by rw [hs2.eSize]; exact hxr.2)]
  simp only [Option.bind_some]
  rw [wrE_eq (by simp only [updE_eSize]; rw [hs2.eSize]; exact htr.2)]
  simp only [Option.bind_some]
  generalize hg4 : (g2.updE x fun _ => {}).updE (twin x) (fun _ => {}) = g4
  have hE4 : ∀ e, g4.E e = if e = twin x then {} else if e = x then {} else g2.E e := by
    intro e; rw [← hg4]; simp
  have hN4 : g4.N = g.N := by rw [← hg4]; exact hs2.N
  have hM4 : g4.M = g.M := by rw [← hg4]; exact hs2.M
  have hA4 : g4.arcCap = g.arcCap := by rw [← hg4]; exact hs2.arcCap
  have hH4 : g4.holes = g.holes := by rw [← hg4]; exact hs2.holes
  have hC4 : g4.holesCap = g.holesCap := by rw [← hg4]; exact hs2.holesCap
  have hV4 : g4.V = g2.V := by rw [← hg4]; rfl
  have hF4 : g4.flags = g.flags := by rw [← hg4]; exact hs2.flags
  have hS4 : g4.stack = g.stack := by rw [← hg4]; exact hs2.stack
  have hSC4 : g4.stackCap = g.stackCap := by rw [← hg4]; exact hs2.stackCap
  have hmemE : ∀ w e, e ∈ removeRot x rot w → g4.E e = g2.E e := by
    intro w e he
    have := mem_removeRot.1 he
    rw [hE4, if_neg this.2.2, if_neg this.2.1]
  have hL4 : Links g4 (removeRot x rot) := by
    have hv4 : g4.vSize = g2.vSize := by simp [vSize, hN4, hs2.N]
    have he4 : g4.eSize = g2.eSize := by simp [eSize, hA4, hs2.arcCap]
    constructor
    · intro w c hw; rw [hV4]; exact hL2.vlink w c (hv4 ▸ hw)
    · intro w c e he; rw [hmemE w e he]; exact hL2.elink w c e he
    · exact hL2.nodup
    · rw [he4]; exact hL2.arc
    · rw [hv4]; exact hL2.vert
    · exact hL2.disj
  have hnotx : ∀ w, x ∉ removeRot x rot w := fun w hw => (mem_removeRot.1 hw).2.1 rfl
  have hnott : ∀ w, twin x ∉ removeRot x rot w := fun w hw => (mem_removeRot.1 hw).2.2 rfl
  have hown : ∀ w e, e ∈ removeRot x rot w → (g4.E (twin e)).nbr = w := by
    intro w e he
    have hm := mem_removeRot.1 he
    rw [hE4, if_neg (fun hh => hm.2.1 (twin_inj hh)), if_neg (fun hh => hm.2.2 (twin_eq_iff.1 hh)),
      hs2.nbr]
    exact h.owner w e hm.1
  have htw : ∀ w e, e ∈ removeRot x rot w → twin e ∈ removeRot x rot (g4.E e).nbr := by
    intro w e he
    have hm := mem_removeRot.1 he
    rw [hmemE w e he, hs2.nbr, mem_removeRot]
    exact ⟨h.twins w e hm.1, fun hh => hm.2.2 (twin_eq_iff.1 hh), fun hh => hm.2.1 (twin_inj hh)⟩
  have hzero : ∀ e, (∀ w, e ∉ removeRot x rot w) → g4.E e = {} := by
    intro e he
    rw [hE4]
    split
    · rfl
    split
    · rfl
    next h1 h2 =>
      have hr : ∀ w, e ∉ rot w := fun w hw => he w (mem_removeRot.2 ⟨hw, h2, h1⟩)
      rw [hz2 e hr]; exact h.zero e hr
  have hoth : ∀ e, e ≠ x → e ≠ twin x →
      (g4.E e).nbr = (g.E e).nbr ∧ (g4.E e).flags = (g.E e).flags := by
    intro e h1 h2
    rw [hE4, if_neg h2, if_neg h1]; exact ⟨hs2.nbr e, hs2.eflags e⟩
  have hcover : ∀ e, 2 ≤ e → e < g.inUse →
      (∃ w, e ∈ removeRot x rot w) ∨ e = x ∨ twin e = x ∨ e ∈ g.holes ∨ twin e ∈ g.holes := by
    intro e h1 h2
    rcases h.cover e h1 h2 with ⟨w, hw⟩ | hh
    · by_cases hex : e = x
      · exact .inr (.inl hex)
      · by_cases het : e = twin x
        · exact .inr (.inr (.inl (twin_eq_iff.2 het)))
        · exact .inl ⟨w, mem_removeRot.2 ⟨hw, hex, het⟩⟩
    · exact .inr (.inr (.inr hh))
  have hin4 : ({ g4 with M := g4.M - 1 } : Graph).inUse + 2 = g.inUse := by
    simp [inUse, hM4, hH4]; omega
  have hidx : ∀ w, (g4.V w).index = (g.V w).index := fun w => by rw [hV4]; exact hs2.index w
  have hvf : ∀ w, (g4.V w).flags = (g.V w).flags := fun w => by rw [hV4]; exact hs2.vflags w
  by_cases hlt : x < ({ g4 with M := g4.M - 1 } : Graph).inUse
  · simp only [hlt, if_true]
    have hcap : g4.holes.length < g4.holesCap := by
      have := h.room; have := h.holesCap
      rw [hH4, hC4]; omega
    rw [if_pos hcap]
    refine ⟨_, rfl, ?_, ?_, hN4, hA4, hF4, hS4, hSC4, hC4, .inr (by simp [hH4]), hoth, hidx, hvf⟩
    · have hin5 : ({ g4 with M := g4.M - 1, holes := x :: g4.holes } : Graph).inUse = g.inUse := by
        simp [inUse, hM4, hH4]; omega
      constructor
      · exact hL4.congr rfl rfl (fun _ _ => rfl) (fun _ _ => rfl)
      · exact hown
      · exact htw
      · show g4.arcCap % 2 = 0; rw [hA4]; exact h.even
      · show g4.M - 1 + (g4.holes.length + 1) ≤ g4.arcCap / 2
        rw [hM4, hH4, hA4]; have := h.room; omega
      · intro e he
        rw [hin5]
        rcases List.mem_cons.1 he with rfl | he
        · exact ⟨hxr.1, hxu, hnotx⟩
        · rw [hH4] at he
          obtain ⟨a, b, c⟩ := h.holeRange e he
          exact ⟨a, b, fun w hw => c w (mem_removeRot.1 hw).1⟩
      · show ((x :: g4.holes).map (· / 2)).Nodup
        rw [hH4, List.map_cons, List.nodup_cons]
        refine ⟨fun hm => ?_, h.holeNodup⟩
        obtain ⟨c, hc, hcx⟩ := List.mem_map.1 hm
        rcases div_eq_cases hcx with rfl | rfl
        · exact (h.holeRange _ hc).2.2 _ hx
        · exact (h.holeRange _ hc).2.2 _ ht
      · intro e h1 h2
        rw [hin5] at h2
        show _ ∨ e ∈ x :: g4.holes ∨ twin e ∈ x :: g4.holes
        rw [hH4]
        simp only [List.mem_cons]
        rcases hcover e h1 h2 with h | h | h | h | h
        · exact .inl h
        · exact .inr (.inl (.inl h))
        · exact .inr (.inr (.inl h))
        · exact .inr (.inl (.inr h))
        · exact .inr (.inr (.inr h))
      · intro w e he; rw [hin5]; exact h.below w e (mem_removeRot.1 he).1
      · exact hzero
      · show g4.arcCap / 2 ≤ g4.holesCap; rw [hA4, hC4]; exact h.holesCap
    · show g4.M - 1 + 1 = g.M; rw [hM4]; omega
  · simp only [hlt, if_false]
    have hlast : x / 2 = g.M + g.holes.length := by
      have h1 : g.inUse = 2 + (g.M + g.holes.length) * 2 := rfl
      omega
    refine ⟨_, rfl, ?_, ?_, hN4, hA4, hF4, hS4, hSC4, hC4, .inl ⟨hH4, hlast⟩, hoth, hidx, hvf⟩
    · have hpair : ∀ e, e / 2 = x / 2 → e = x ∨ e = twin x := fun e he => div_eq_cases he
      constructor
      · exact hL4.congr rfl rfl (fun _ _ => rfl) (fun _ _ => rfl)
      · exact hown
      · exact htw
      · show g4.arcCap % 2 = 0; rw [hA4]; exact h.even
      · show g4.M - 1 + g4.holes.length ≤ g4.arcCap / 2
        rw [hM4, hH4, hA4]; have := h.room; omega
      · intro e he
        have he : e ∈ g.holes := hH4 ▸ he
        obtain ⟨a, b, c⟩ := h.holeRange e he
        refine ⟨a, ?_, fun w hw => c w (mem_removeRot.1 hw).1⟩
        by_contra hcon
        rcases hpair e (by omega) with rfl | rfl
        · exact c _ hx
        · exact c _ ht
      · show (g4.holes.map (· / 2)).Nodup; rw [hH4]; exact h.holeNodup
      · intro e h1 h2
        show _ ∨ e ∈ g4.holes ∨ twin e ∈ g4.holes
        rw [hH4]
        rcases hcover e h1 (by omega) with h | h | h | h | h
        · exact .inl h
        · exfalso; omega
        · exfalso
          have : e / 2 = x / 2 := by rw [← twin_div, h]
          omega
        · exact .inr (.inl h)
        · exact .inr (.inr h)
      · intro w e he
        have hm := mem_removeRot.1 he
        have := h.below w e hm.1
        by_contra hcon
        rcases hpair e (by omega) with rfl | rfl
        · exact hm.2.1 rfl
        · exact hm.2.2 rfl
      · exact hzero
      · show g4.arcCap / 2 ≤ g4.holesCap; rw [hA4, hC4]; exact h.holesCap
    · show g4.M - 1 + 1 = g.M; rw [hM4]; omega

end Graph
end Verif
