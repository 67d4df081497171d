import Verif.DFS.Reach

/-
The result of the search described as a depth-first search forest, and the result of sorting as a renaming.
-/
namespace Verif.DFS
open Verif Verif.Graph Verif.Props Function

theorem arcTo_iff {g : Graph} {rot} (h : Inv g rot) {u e w : Nat} : ArcTo g u e w ↔ e ∈ rot u ∧ (g.E e).nbr = w := by
  unfold ArcTo
  rw [h.arcAt]
  constructor
  · rintro ⟨h1, h2⟩
    refine ⟨h1, ?_⟩
    simpa [getNbr, rdE, (h.links.arc u e h1).2] using h2
  · rintro ⟨h1, h2⟩
    refine ⟨h1, ?_⟩
    simp [getNbr, rdE, (h.links.arc u e h1).2, h2]

theorem arcTo_twin {g : Graph} {rot} (h : Inv g rot) {u e w : Nat} (ha : ArcTo g u e w) : ArcTo g w (twin e) u := by
  rw [arcTo_iff h] at ha ⊢
  obtain ⟨h1, rfl⟩ := ha
  exact ⟨h.twins u e h1, h.owner u e h1⟩

theorem Joined.trans {g : Graph} {a b c : Nat} (h : Joined g a b) (h' : Joined g b c) : Joined g a c := by
  induction h' with
  | refl => exact h
  | step _ ha ih => exact .step ih ha

theorem joined_symm {g : Graph} {rot} (hI : Inv g rot) {a b : Nat} (h : Joined g a b) : Joined g b a := by
  induction h with
  | refl => exact .refl _
  | step _ ha ih => exact Joined.trans (.step (.refl _) (arcTo_twin hI ha)) ih

theorem joined_linked {g : Graph} {rot hd} (hI : Inv g rot) (hh : ∀ u e, e ∈ rot u → hd e = (g.E e).nbr) {a b : Nat}
    (h : Joined g a b) : Linked rot hd a b := by
  induction h with
  | refl => exact .refl _
  | step _ ha ih =>
    obtain ⟨h1, h2⟩ := (arcTo_iff hI).1 ha
    rw [← h2, ← hh _ _ h1]
    exact .step ih h1

theorem getType_eq {g : Graph} {e t : Nat} (he : e < g.eSize) : g.getType e = some t ↔ (g.E e).flags &&& 14 = t := by
  simp [getType, rdE, he]

/-- The result of the search is a depth-first search forest. -/
theorem forest_searched {s rot r order} (h : PInv s rot) (hf : s.g.dfsNumbered = false)
    (hd : DInv s.g.N rot (hdOf s) r order []) (hfr : Frame s rot r order) (hl : order.length = s.g.N) :
    Forest (searched s r order) r.idx r.par := by
  have hS := (h.start hf).static
  have hI := (h.searched hd hfr hl).inv
  have hm : ∀ u, IsPrimary (searched s r order) u → u ∈ order := fun u hu => mem_order hd hl hu.1 hu.2
  have hpr : ∀ u, u ∈ order → IsPrimary (searched s r order) u := fun u hu => hd.range u hu
  have harc : ∀ u e w, ArcTo (searched s r order).g u e w ↔ e ∈ rot u ∧ hdOf s e = w := fun u e w => arcTo_iff hI
  have hprim : ∀ u e, e ∈ rot u → u ∈ order := fun u e he => mem_order hd hl (h.prim u e he).1 (h.prim u e he).2
  have htype : ∀ u e t, e ∈ rot u → r.ty e = t → t &&& 14 = t → (searched s r order).g.getType e = some t := by
    intro u e t he ht h14
    refine (getType_eq (hI.links.arc u e he).2).2 ?_
    show ((s.g.E e).flags ||| r.ty e) &&& 14 = t
    rw [Nat.and_or_distrib_right, (h.fresh hf).1 u e he, ht, h14, Nat.zero_or]
  have htyped : ∀ u e, e ∈ rot u → hdOf s e ≠ u → Typed (hdOf s) r u e ∨ Typed (hdOf s) r (hdOf s e) (twin e) := by
    intro u e he hne
    rcases hd.typed u (hprim u e he) e he (hprim _ _ (hS.twins u e he)) hne with h | h | h | h
    · cases h
    · cases h
    · exact .inl h
    · exact .inr h
  have htypes : ∀ u e w, ArcTo (searched s r order).g u e w → RightTypes (searched s r order) r.par u e w := by
    intro u e w ha
    obtain ⟨he, rfl⟩ := (harc _ _ _).1 ha
    have ht := hS.twins u e he
    by_cases hne : hdOf s e = u
    · left
      refine ⟨hne.symm, htype u e 0 he (hd.loops u e he hne) rfl, htype _ _ 0 ht ?_ rfl⟩
      apply hd.loops _ _ ht
      rw [hS.owner u e he, hne]
    · right
      refine ⟨fun h => hne h.symm, ?_⟩
      rcases htyped u e he hne with (⟨h1, h2, h3⟩ | ⟨h1, h2, h3⟩) | (⟨h1, h2, h3⟩ | ⟨h1, h2, h3⟩)
      · exact .inl ⟨h3, htype _ _ _ he h1 rfl, htype _ _ _ ht h2 rfl⟩
      · exact .inr (.inr (.inl ⟨h3, htype _ _ _ he h1 rfl, htype _ _ _ ht h2 rfl⟩))
      · rw [twin_twin] at h2
        rw [hS.owner u e he] at h3
        exact .inr (.inl ⟨h3, htype _ _ _ he h2 rfl, htype _ _ _ ht h1 rfl⟩)
      · rw [twin_twin] at h2
        rw [hS.owner u e he] at h3
        exact .inr (.inr (.inr ⟨h3, htype _ _ _ he h2 rfl, htype _ _ _ ht h1 rfl⟩))
  have hty14 : ∀ u e, e ∈ rot u → hdOf s e ≠ u → (searched s r order).g.getType e = some 14 → r.ty e = 14 := by
    intro u e he hne h14
    rcases htyped u e he hne with (⟨h1, h2, h3⟩ | ⟨h1, h2, h3⟩) | (⟨h1, h2, h3⟩ | ⟨h1, h2, h3⟩)
    · exact h1
    · rw [htype u e _ he h1 rfl] at h14; cases h14
    · rw [twin_twin] at h2; rw [htype u e _ he h2 rfl] at h14; cases h14
    · rw [twin_twin] at h2; rw [htype u e _ he h2 rfl] at h14; cases h14
  have hup : ∀ u, u ∈ order → ∃ x, x ∈ order ∧ r.par x = 0 ∧ Joined (searched s r order).g u x := by
    intro u
    induction hk : r.idx u using Nat.strong_induction_on generalizing u with
    | _ k ih =>
      intro hu
      rcases hd.parIn u hu with h0 | ⟨h1, h2, e, he, h3, _⟩
      · exact ⟨u, hu, h0, .refl _⟩
      · obtain ⟨x, hx1, hx2, hx3⟩ := ih _ (by omega) (r.par u) rfl h1
        refine ⟨x, hx1, hx2, Joined.trans (.step (e := twin e) (.refl _) ?_) hx3⟩
        exact arcTo_twin hI ((harc _ _ _).2 ⟨he, h3⟩)
  constructor
  · intro u hu
    have : u < 1 + s.g.N := by have := hu.2; show u < 1 + s.g.N; have : u ≤ s.g.N := hu.2; omega
    show (if u < 1 + s.g.N then some _ else none).bind _ = _
    rw [if_pos this]; rfl
  · intro u hu
    have := hd.idxR u (hm u hu)
    rw [hl] at this; exact this
  · intro u w hu hw he; exact hd.idxInj u (hm u hu) w (hm w hw) he
  · intro u hu hne
    rcases hd.parIn u (hm u hu) with h0 | ⟨h1, h2, e, he, h3, h4⟩
    · exact absurd h0 hne
    · refine ⟨hpr _ h1, h2, e, ⟨(harc _ _ _).2 ⟨he, h3⟩, htype _ _ _ he h4 rfl⟩, ?_⟩
      intro e' ha h14
      obtain ⟨he', h5⟩ := (harc _ _ _).1 ha
      refine hd.uniq _ _ e' he' e he (hty14 _ _ he' ?_ h14) h4 (by rw [h3, h5])
      rw [h5]; intro hh; rw [← hh] at h2; omega
  · intro u hu
    obtain ⟨x, hx1, hx2, hx3⟩ := hup u (hm u hu)
    refine ⟨x, ⟨hpr x hx1, hx2, hx3⟩, fun y hy1 hy2 hy3 => ?_⟩
    by_contra hne
    refine hd.comps y (hm y hy1) x hx1 hy2 hx2 hne (joined_linked hI (fun _ _ _ => rfl) ?_)
    exact Joined.trans (joined_symm hI hy3) hx3
  · intro u e w ha
    obtain ⟨he, rfl⟩ := (harc _ _ _).1 ha
    exact ⟨h.prim u e he, h.prim _ _ (hS.twins u e he)⟩
  · intro u e w ha
    obtain ⟨he, rfl⟩ := (harc _ _ _).1 ha
    exact hd.anc u (hprim u e he) e he (hprim _ _ (hS.twins u e he))
  · exact htypes
  · intro u w x hu hw hx ha h1 h2
    by_contra hna
    have huw : r.idx u ≠ r.idx w := by
      intro he
      have := hd.idxInj u (hm u hu) w (hm w hw) he
      subst this; exact hna (.refl _)
    have hwx : r.idx w ≠ r.idx x := by
      intro he
      have := hd.idxInj w (hm w hw) x (hm x hx) he
      subst this; exact hna ha
    exact hd.interval u (hm u hu) w (hm w hw) x (hm x hx) (by omega) (by omega) hna ha

/-- Sorting renames every vertex to its number. -/
theorem renamed_sorted {s rot inv} (h : PInv s rot) (hn : Numbering s.g inv)
    (hp : ∀ u, 1 ≤ u → u ≤ s.g.N → (s.VI u).parent ≤ s.g.N) (hf : s.g.dfsNumbered = true) :
    Renamed s (sortedOf s inv) (fun u => (s.g.V u).index) := by
  have hI' := (h.sorted hn hp hf).inv
  have hV : ∀ u, IsPrimary s u → (sortedOf s inv).g.V (s.g.V u).index =
      { s.g.V u with index := u, flags := (s.g.V u).flags / 2 * 2 ||| 1 } := by
    intro u hu
    have ho := hn.out u hu.1 hu.2
    show (if 1 ≤ (s.g.V u).index ∧ (s.g.V u).index ≤ s.g.N then _ else s.g.V _) = _
    rw [if_pos ⟨ho.1, ho.2.1⟩, ho.2.2]
  have hVI : ∀ u, IsPrimary s u → (sortedOf s inv).VI (s.g.V u).index =
      { s.VI u with parent := relab s.g (s.VI u).parent } := by
    intro u hu
    have ho := hn.out u hu.1 hu.2
    show (if 1 ≤ (s.g.V u).index ∧ (s.g.V u).index ≤ s.g.N then _ else s.VI _) = _
    rw [if_pos ⟨ho.1, ho.2.1⟩, ho.2.2]
  have hvs : ∀ u, u ≤ s.g.N → u < (sortedOf s inv).g.vSize := by
    intro u hu; show u < 1 + s.g.N + s.g.N; omega
  constructor
  · rfl
  · rfl
  · intro u hu; have := hn.out u hu.1 hu.2; exact ⟨this.1, this.2.1⟩
  · intro u w hu hw he
    have h1 := hn.out u hu.1 hu.2
    have h2 := hn.out w hw.1 hw.2
    have he : (s.g.V u).index = (s.g.V w).index := he
    rw [← h1.2.2, he, h2.2.2]
  · intro u hu b
    have ho := hn.out u hu.1 hu.2
    have hu' : u < s.g.vSize := by have := hu.2; unfold vSize; omega
    rw [walk_eq h.inv.links hu', walk_eq hI'.links (hvs _ ho.2.1)]
    unfold sortRot
    rw [if_pos ⟨ho.1, ho.2.1⟩, ho.2.2]
  · intro u e w ha
    rw [arcTo_iff h.inv] at ha
    rw [arcTo_iff hI']
    refine ⟨(mem_sortRot hn h.prim).2 ⟨u, ha.1, rfl⟩, ?_⟩
    show relab s.g (s.g.E e).nbr = _
    have := h.prim _ _ (h.inv.twins u e ha.1)
    rw [relab, if_neg (by omega), ha.2]
  · intro e
    show Option.map _ (if e < s.g.eSize then some (relabE s.g e) else none) = Option.map _ (if e < s.g.eSize then some (s.g.E e) else none)
    split <;> rfl
  · intro u p hu hpar
    have ho := hn.out u hu.1 hu.2
    have h1 : u < 1 + s.g.N := by have := hu.2; omega
    simp only [PGraph.getParent, PGraph.rdVI, h1, if_true, Option.bind_eq_bind, Option.bind_some] at hpar
    have h2 : (s.g.V u).index < 1 + (sortedOf s inv).g.N := by show _ < 1 + s.g.N; omega
    simp only [PGraph.getParent, PGraph.rdVI, h2, if_true, Option.bind_eq_bind, Option.bind_some, hVI u hu]
    have hpar : (s.VI u).parent = p := by simpa using hpar
    rw [hpar]; rfl
  · intro u hu
    have ho := hn.out u hu.1 hu.2
    have h1 : u < 1 + s.g.N := by have := hu.2; omega
    have h2 : (s.g.V u).index < 1 + (sortedOf s inv).g.N := by show _ < 1 + s.g.N; omega
    simp only [PGraph.rdVI, h1, h2, if_true, Option.map_some, hVI u hu]
  · intro u hu
    have ho := hn.out u hu.1 hu.2
    have h1 : u < s.g.vSize := by have := hu.2; unfold vSize; omega
    simp only [rdV, h1, hvs _ ho.2.1, if_true, Option.map_some, hV u hu]
    rw [Nat.or_div_two]; simp
  · intro u hu
    have ho := hn.out u hu.1 hu.2
    simp only [getIndex, rdV, hvs _ ho.2.1, if_true, Option.bind_eq_bind, Option.bind_some, hV u hu]
    rfl

/-- Parents after sorting. -/
def sortPar (g : Graph) (inv par : Nat → Nat) (d : Nat) : Nat := relab g (par (inv d))

section transport
variable {s : PGraph} {rot : Nat → List Nat} {inv num par : Nat → Nat}

theorem primary_sigma (hn : Numbering s.g inv) {u : Nat} (hu : IsPrimary s u) : IsPrimary s (s.g.V u).index :=
  ⟨(hn.out u hu.1 hu.2).1, (hn.out u hu.1 hu.2).2.1⟩
theorem primary_inv (hn : Numbering s.g inv) {d : Nat} (hd : IsPrimary s d) : IsPrimary s (inv d) :=
  ⟨(hn.back d hd.1 hd.2).1, (hn.back d hd.1 hd.2).2.1⟩

theorem sortPar_sigma (hn : Numbering s.g inv) {u : Nat} (hu : IsPrimary s u) :
    sortPar s.g inv par (s.g.V u).index = relab s.g (par u) := by
  unfold sortPar; rw [(hn.out u hu.1 hu.2).2.2]

theorem relab_eq_zero (hn : Numbering s.g inv) {p : Nat} (hp : p ≤ s.g.N) : relab s.g p = 0 ↔ p = 0 := by
  unfold relab
  split
  · next h => simp [h]
  · next h => have := (hn.out p (by omega) hp).1; constructor <;> intro h' <;> omega

theorem relab_pos {p : Nat} (hp : p ≠ 0) : relab s.g p = (s.g.V p).index := by unfold relab; rw [if_neg hp]

theorem par_le (hF : Forest s num par) {u : Nat} (hu : IsPrimary s u) : par u ≤ s.g.N := by
  by_cases h : par u = 0
  · omega
  · exact (hF.up u hu h).1.2

theorem ancEq_primary (hF : Forest s num par) {a b : Nat} (h : AncEq par a b) (hb : IsPrimary s b) : IsPrimary s a := by
  induction h with
  | refl => exact hb
  | up h1 _ ih => exact ih (hF.up _ hb h1).1

/-- Ancestors are renamed. -/
theorem ancEq_sigma (hF : Forest s num par) (hn : Numbering s.g inv) {a b : Nat} (h : AncEq par a b) (hb : IsPrimary s b) :
    AncEq (sortPar s.g inv par) (s.g.V a).index (s.g.V b).index := by
  induction h with
  | refl => exact .refl _
  | @up b h1 _ ih =>
    have hp := hF.up b hb h1
    have ih := ih hp.1
    refine .up ?_ ?_
    · rw [sortPar_sigma hn hb, Ne, relab_eq_zero hn hp.1.2]; exact h1
    · rw [sortPar_sigma hn hb, relab_pos h1]; exact ih

theorem ancEq_sort (hF : Forest s num par) (hn : Numbering s.g inv) {a b : Nat} (h : AncEq (sortPar s.g inv par) a b)
    (hb : IsPrimary s b) : AncEq par (inv a) (inv b) := by
  induction h with
  | refl => exact .refl _
  | @up b h1 _ ih =>
    have hib := primary_inv hn hb
    have h2 : par (inv b) ≠ 0 := fun h => h1 (by unfold sortPar; rw [h]; rfl)
    have hp := hF.up _ hib h2
    have h3 : sortPar s.g inv par b = (s.g.V (par (inv b))).index := by unfold sortPar; rw [relab_pos h2]
    rw [h3] at ih
    have ih := ih (primary_sigma hn hp.1)
    rw [(hn.out _ hp.1.1 hp.1.2).2.2] at ih
    exact .up h2 ih

theorem anc_sigma (hF : Forest s num par) (hn : Numbering s.g inv) {a b : Nat} (h : Anc par a b) (hb : IsPrimary s b) :
    Anc (sortPar s.g inv par) (s.g.V a).index (s.g.V b).index := by
  have hp := hF.up b hb h.1
  refine ⟨?_, ?_⟩
  · rw [sortPar_sigma hn hb, Ne, relab_eq_zero hn hp.1.2]; exact h.1
  · rw [sortPar_sigma hn hb, relab_pos h.1]; exact ancEq_sigma hF hn h.2 hp.1

theorem arcTo_sort (h : PInv s rot) (hn : Numbering s.g inv)
    (hp : ∀ u, 1 ≤ u → u ≤ s.g.N → (s.VI u).parent ≤ s.g.N) (hf : s.g.dfsNumbered = true) {d e x : Nat}
    (ha : ArcTo (sortedOf s inv).g d e x) : ∃ u w, IsPrimary s u ∧ IsPrimary s w ∧ d = (s.g.V u).index ∧
      x = (s.g.V w).index ∧ ArcTo s.g u e w := by
  rw [arcTo_iff (h.sorted hn hp hf).inv] at ha
  obtain ⟨u, hu, rfl⟩ := (mem_sortRot hn h.prim).1 ha.1
  have hw := h.prim _ _ (h.inv.twins u e hu)
  refine ⟨u, (s.g.E e).nbr, h.prim u e hu, hw, rfl, ?_, (arcTo_iff h.inv).2 ⟨hu, rfl⟩⟩
  rw [← ha.2]
  show relab s.g _ = _
  rw [relab_pos (by omega)]

theorem getType_sort {e : Nat} : (sortedOf s inv).g.getType e = s.g.getType e := by
  show (if e < s.g.eSize then some (relabE s.g e) else none).bind _ = (if e < s.g.eSize then some (s.g.E e) else none).bind _
  split <;> rfl

theorem joined_sigma (hR : Renamed s (sortedOf s inv) (fun u => (s.g.V u).index)) {a b : Nat} (h : Joined s.g a b) :
    Joined (sortedOf s inv).g (s.g.V a).index (s.g.V b).index := by
  induction h with
  | refl => exact .refl _
  | step _ ha ih => exact .step ih (hR.heads _ _ _ ha)

theorem joined_sort (h : PInv s rot) (hn : Numbering s.g inv)
    (hp : ∀ u, 1 ≤ u → u ≤ s.g.N → (s.VI u).parent ≤ s.g.N) (hf : s.g.dfsNumbered = true) {a b : Nat}
    (hj : Joined (sortedOf s inv).g a b) : Joined s.g (inv a) (inv b) := by
  induction hj with
  | refl => exact .refl _
  | step _ ha ih =>
    obtain ⟨u, w, hu, hw, rfl, rfl, h2⟩ := arcTo_sort h hn hp hf ha
    rw [(hn.out u hu.1 hu.2).2.2] at ih
    rw [(hn.out w hw.1 hw.2).2.2]
    exact .step ih h2

/-- Sorting a numbered depth-first search forest gives one in which the names are the numbers. -/
theorem forest_sorted (h : PInv s rot) (hn : Numbering s.g inv)
    (hp : ∀ u, 1 ≤ u → u ≤ s.g.N → (s.VI u).parent ≤ s.g.N) (hf : s.g.dfsNumbered = true)
    (hF : Forest s num par) (hnum : ∀ u, IsPrimary s u → (s.g.V u).index = num u) :
    Forest (sortedOf s inv) id (sortPar s.g inv par) := by
  have hR := renamed_sorted h hn hp hf
  have hsi : ∀ d, IsPrimary s d → (s.g.V (inv d)).index = d := fun d hd => (hn.back d hd.1 hd.2).2.2
  have his : ∀ u, IsPrimary s u → inv (s.g.V u).index = u := fun d hd => (hn.out d hd.1 hd.2).2.2
  have hni : ∀ d, IsPrimary s d → num (inv d) = d := fun d hd => by rw [← hnum _ (primary_inv hn hd), hsi d hd]
  constructor
  · intro d hd
    have hd : IsPrimary s d := hd
    have hi := primary_inv hn hd
    have := hR.parents (inv d) _ hi (hF.parent _ hi)
    simp only [hsi d hd] at this
    rw [this]
    rfl
  · intro d hd; exact hd
  · intro d e _ _ h; exact h
  · intro d hd hne
    have hd : IsPrimary s d := hd
    have hi := primary_inv hn hd
    have h0 : par (inv d) ≠ 0 := fun h => hne (by unfold sortPar; rw [h]; rfl)
    have hsp : sortPar s.g inv par d = (s.g.V (par (inv d))).index := by unfold sortPar; rw [relab_pos h0]
    obtain ⟨hpp, hlt, e, ⟨ha, ht⟩, hu⟩ := hF.up _ hi h0
    rw [hsp]
    refine ⟨primary_sigma hn hpp, ?_, e, ⟨?_, ?_⟩, ?_⟩
    · show (s.g.V (par (inv d))).index < d
      rw [hnum _ hpp]
      rw [hni d hd] at hlt; exact hlt
    · have := hR.heads _ _ _ ha
      simp only [hsi d hd] at this
      exact this
    · rw [getType_sort]; exact ht
    · intro e' ha' ht'
      rw [getType_sort] at ht'
      obtain ⟨u, w, hu', hw', h1, h2, h3⟩ := arcTo_sort h hn hp hf ha'
      have h1 : par (inv d) = u := hR.inj _ _ hpp hu' h1
      have h2 : inv d = w := by rw [h2, his w hw']
      subst h1; subst h2
      exact hu e' h3 ht'
  · intro d hd
    have hd : IsPrimary s d := hd
    have hi := primary_inv hn hd
    obtain ⟨r, ⟨hr1, hr2, hr3⟩, hr4⟩ := hF.root _ hi
    refine ⟨(s.g.V r).index, ⟨primary_sigma hn hr1, ?_, ?_⟩, ?_⟩
    · rw [sortPar_sigma hn hr1, hr2]; rfl
    · have := joined_sigma hR hr3
      rw [hsi d hd] at this; exact this
    · intro r' h1 h2 h3
      have h1 : IsPrimary s r' := h1
      have hi' := primary_inv hn h1
      have h5 : par (inv r') = 0 := by
        have h2 : relab s.g (par (inv r')) = 0 := h2
        exact (relab_eq_zero hn (par_le hF hi')).1 h2
      rw [← hr4 (inv r') hi' h5 (joined_sort h hn hp hf h3), hsi r' h1]
  · intro d e x ha
    obtain ⟨u, w, hu, hw, rfl, rfl, _⟩ := arcTo_sort h hn hp hf ha
    exact ⟨primary_sigma hn hu, primary_sigma hn hw⟩
  · intro d e x ha
    obtain ⟨u, w, hu, hw, rfl, rfl, h2⟩ := arcTo_sort h hn hp hf ha
    exact (hF.related u e w h2).imp (fun h => ancEq_sigma hF hn h hw) (fun h => ancEq_sigma hF hn h hu)
  · intro d e x ha
    obtain ⟨u, w, hu, hw, rfl, rfl, h2⟩ := arcTo_sort h hn hp hf ha
    unfold RightTypes
    rw [getType_sort, getType_sort]
    rcases hF.types u e w h2 with ⟨rfl, h3⟩ | ⟨hne, h3⟩
    · exact .inl ⟨rfl, h3⟩
    · right
      refine ⟨fun he => hne (hR.inj u w hu hw he), ?_⟩
      rcases h3 with ⟨h4, h5⟩ | ⟨h4, h5⟩ | ⟨h4, h5⟩ | ⟨h4, h5⟩
      · left
        refine ⟨?_, h5⟩
        rw [sortPar_sigma hn hw, h4, relab_pos (by have := hu.1; omega)]
      · right; left
        refine ⟨?_, h5⟩
        rw [sortPar_sigma hn hu, h4, relab_pos (by have := hw.1; omega)]
      · exact .inr (.inr (.inl ⟨anc_sigma hF hn h4 hw, h5⟩))
      · exact .inr (.inr (.inr ⟨anc_sigma hF hn h4 hu, h5⟩))
  · intro a b c ha hb hc hanc h1 h2
    have ha : IsPrimary s a := ha
    have hb : IsPrimary s b := hb
    have hc : IsPrimary s c := hc
    have := hF.consecutive (inv a) (inv b) (inv c) (primary_inv hn ha) (primary_inv hn hb) (primary_inv hn hc)
      (ancEq_sort hF hn hanc hc) (by rw [hni a ha, hni b hb]; exact h1) (by rw [hni b hb, hni c hc]; exact h2)
    have := ancEq_sigma hF hn this (primary_inv hn hb)
    rw [hsi a ha, hsi b hb] at this
    exact this

end transport

end Verif.DFS
