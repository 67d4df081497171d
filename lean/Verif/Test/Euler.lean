import Verif.Test.Faces
import Verif.Test.SubSort
import Verif.Spec.Tests

/-
Counting vertices, edges, faces and components of a consistent graph.
-/
namespace Verif
namespace Test
open Graph Map Equiv Equiv.Perm Props DFS

/-- Representatives are equally many. -/
theorem transversal_le {dom : Nat → Prop} {r : Nat → Nat → Prop} (hs : ∀ a b, r a b → r b a)
    (ht : ∀ a b c, r a b → r b c → r a c) {l l' : List Nat} (h : Transversal dom r l) (h' : Transversal dom r l') :
    l.length ≤ l'.length := by
  classical
  have hch : ∀ x, ∃ y, x ∈ l → y ∈ l' ∧ r y x := by
    intro x
    by_cases hx : x ∈ l
    · obtain ⟨y, h1, h2⟩ := h'.all x (h.mem x hx)
      exact ⟨y, fun _ => ⟨h1, h2⟩⟩
    · exact ⟨0, fun hc => absurd hc hx⟩
  choose f hf using hch
  have hnd : (l.map f).Nodup := by
    rw [List.nodup_iff_pairwise_ne, List.pairwise_map]
    refine h.apart.imp_of_mem ?_
    intro a b ha hb hab he
    have h1 := (hf a ha).2
    have h2 := (hf b hb).2
    rw [he] at h1
    exact hab (ht _ _ _ (hs _ _ h1) h2)
  have := (hnd.subperm (l₂ := l') (fun y hy => by
    obtain ⟨x, hx, rfl⟩ := List.mem_map.1 hy
    exact (hf x hx).1)).length_le
  simpa using this

theorem transversal_length {dom : Nat → Prop} {r : Nat → Nat → Prop} (hs : ∀ a b, r a b → r b a)
    (ht : ∀ a b c, r a b → r b c → r a c) {l l' : List Nat} (h : Transversal dom r l) (h' : Transversal dom r l') :
    l.length = l'.length := le_antisymm (transversal_le hs ht h h') (transversal_le hs ht h' h)

/-- Successor of an element, in index form. -/
theorem follows_iff {L : List Nat} (hn : L.Nodup) {i : Nat} (hi : i < L.length) {y : Nat} :
    Follows L L[i] y ↔ y = L[(i + 1) % L.length]'(Nat.mod_lt _ (by omega)) := by
  unfold Follows
  constructor
  · rintro (⟨A, B, he⟩ | ⟨h1, h2⟩)
    · have hA : A.length = i := by
        have h1 : A.length < L.length := by rw [he]; simp
        have h2 : L[A.length] = L[i] := by
          have : L[A.length]? = some L[i] := by
            conv_lhs => rw [he]
            simp
          rw [List.getElem?_eq_getElem h1] at this
          exact Option.some.inj this
        exact (List.Nodup.getElem_inj_iff hn).1 h2
      have hlen : i + 1 < L.length := by
        have := congrArg List.length he
        simp only [List.length_append, List.length_cons] at this
        omega
      have : L[i + 1]? = some y := by
        conv_lhs => rw [he]
        rw [List.getElem?_append_right (by omega), hA]
        simp
      simp only [Nat.mod_eq_of_lt hlen]
      rw [List.getElem?_eq_getElem hlen] at this
      exact (Option.some.inj this).symm
    · have hlast : i = L.length - 1 := by
        rw [List.getLast?_eq_getElem?, List.getElem?_eq_getElem (by omega)] at h1
        exact ((List.Nodup.getElem_inj_iff hn).1 (Option.some.inj h1)).symm
      have hm : (i + 1) % L.length = 0 := by rw [show i + 1 = L.length by omega, Nat.mod_self]
      simp only [hm]
      rw [List.head?_eq_getElem?, List.getElem?_eq_getElem (by omega)] at h2
      exact (Option.some.inj h2).symm
  · rintro rfl
    by_cases hl : i + 1 < L.length
    · left
      simp only [Nat.mod_eq_of_lt hl]
      refine ⟨L.take i, L.drop (i + 2), ?_⟩
      rw [← List.drop_eq_getElem_cons hl, ← List.drop_eq_getElem_cons hi, List.take_append_drop]
    · right
      have hm : (i + 1) % L.length = 0 := by rw [show i + 1 = L.length by omega, Nat.mod_self]
      simp only [hm]
      rw [List.getLast?_eq_getElem?, List.head?_eq_getElem?, List.getElem?_eq_getElem (by omega),
        List.getElem?_eq_getElem (by omega)]
      refine ⟨?_, rfl⟩
      congr 2
      omega

section
variable {g : Graph} {rot : Nat → List Nat} (h : Inv g rot)
include h

theorem follows_sg (d : Dart rot) {y : Nat} : Follows (rot (own g d)) d.1 y ↔ y = (sg h.weak d).1 := by
  obtain ⟨i, hi, e1⟩ := List.getElem_of_mem (own_mem h.weak d)
  have hd : d = ⟨(rot (own g d))[i], _, List.getElem_mem hi⟩ := Subtype.ext e1.symm
  have hs := sg_get h.weak hi
  rw [← hd] at hs
  rw [hs, ← follows_iff (h.links.nodup _) hi, e1]

theorem follows_mem {L : List Nat} {x y : Nat} (hf : Follows L x y) : x ∈ L ∧ y ∈ L := by
  rcases hf with ⟨A, B, rfl⟩ | ⟨h1, h2⟩
  · simp
  · exact ⟨List.mem_of_getLast? h1, List.mem_of_head? h2⟩

theorem faceStep_iff {a b : Nat} : FaceStep g a b ↔ ∃ d : Dart rot, d.1 = a ∧ (ph h.weak d).1 = b := by
  have hw : ∀ v L, IsVertex g v → HasList g v L → L = rot v := by
    intro v L hv hL
    have h1 := (hasList h.links (vSize_iff.1 hv).2).1
    rw [hL.1] at h1
    exact Option.some.inj h1
  constructor
  · rintro ⟨v, L, hv, hL, hf⟩
    have hL := hw v L hv hL
    subst hL
    have hm := (follows_mem h hf).1
    have ht : twin a ∈ rot v := hm
    have ha := h.twins v _ ht
    rw [twin_twin] at ha
    let d : Dart rot := ⟨a, _, ha⟩
    refine ⟨d, rfl, ?_⟩
    have ho : own g (al h.weak d) = v := own_eq h.weak ht
    have := (follows_sg h (al h.weak d) (y := b)).1 (by rw [ho]; exact hf)
    exact this.symm
  · rintro ⟨d, rfl, rfl⟩
    have ho := own_mem h.weak (al h.weak d)
    have hv := h.links.vert _ _ ho
    refine ⟨own g (al h.weak d), rot (own g (al h.weak d)), vSize_iff.2 hv, hasList h.links hv.2, ?_⟩
    exact (follows_sg h (al h.weak d)).2 rfl

theorem sameFace_iff {a b : Nat} : SameFace g a b ↔ a = b ∨ ∃ d d' : Dart rot, d.1 = a ∧ d'.1 = b ∧ SameCycle (ph h.weak) d d' := by
  have := dart_finite h.weak
  constructor
  · intro hs
    induction hs with
    | refl => exact .inl rfl
    | step _ hf ih =>
      obtain ⟨d', rfl, rfl⟩ := (faceStep_iff h).1 hf
      right
      rcases ih with rfl | ⟨d, d2, h1, h2, h3⟩
      · exact ⟨d', _, rfl, rfl, same_step _ _⟩
      · have := Subtype.ext h2
        subst this
        exact ⟨d, _, h1, rfl, h3.trans (same_step _ _)⟩
  · rintro (rfl | ⟨d, d', rfl, rfl, hs⟩)
    · exact .refl _
    · obtain ⟨n, rfl⟩ := SameCycle.exists_nat_pow_eq hs
      clear hs
      induction n with
      | zero => exact .refl _
      | succ n ih =>
        rw [pow_succ', mul_apply]
        exact .step ih ((faceStep_iff h).2 ⟨_, rfl, rfl⟩)

theorem sameFace_dart {d d' : Dart rot} : SameFace g d.1 d'.1 ↔ SameCycle (ph h.weak) d d' := by
  rw [sameFace_iff h]
  constructor
  · rintro (he | ⟨e, e', h1, h2, h3⟩)
    · rw [Subtype.ext he]
    · rwa [← Subtype.ext h1, ← Subtype.ext h2]
  · exact fun hs => .inr ⟨d, d', rfl, rfl, hs⟩

/-- A list of live arcs as darts. -/
theorem exists_darts {l : List Nat} (hl : ∀ e ∈ l, ∃ u, e ∈ rot u) : ∃ L : List (Dart rot), L.map (·.1) = l :=
  ⟨l.pmap (fun e he => ⟨e, he⟩) hl, by rw [List.map_pmap]; simp⟩

theorem face_count {F : List Nat} (hF : Transversal (Live g) (SameFace g) F) : cyc (ph h.weak) = F.length := by
  have := dart_finite h.weak
  obtain ⟨L, rfl⟩ := exists_darts h fun e he => (live_iff h).1 (hF.mem e he)
  rw [List.length_map]
  refine cls_eq (r := SameCycle.setoid (ph h.weak)) ?_ ?_
  · have := hF.apart
    rw [List.pairwise_map] at this
    exact this.imp fun hab hc => hab ((sameFace_dart h).2 hc)
  · intro x
    obtain ⟨a, ha, hx⟩ := hF.all x.1 ((live_iff h).2 x.2)
    obtain ⟨d, hd, rfl⟩ := List.mem_map.1 ha
    exact ⟨d, hd, (sameFace_dart h).1 hx⟩

theorem transversal_of_darts {L : List (Dart rot)} (h1 : L.Pairwise (fun a b => ¬ SameCycle (ph h.weak) a b))
    (h2 : ∀ d, ∃ r ∈ L, SameCycle (ph h.weak) r d) : Transversal (Live g) (SameFace g) (L.map (·.1)) := by
  refine ⟨?_, ?_, ?_⟩
  · intro e he
    obtain ⟨d, _, rfl⟩ := List.mem_map.1 he
    exact (live_iff h).2 d.2
  · rw [List.pairwise_map]
    exact h1.imp fun hab hc => hab ((sameFace_dart h).1 hc)
  · intro e he
    obtain ⟨r, hr, hs⟩ := h2 ⟨e, (live_iff h).1 he⟩
    exact ⟨r.1, List.mem_map.2 ⟨r, hr, rfl⟩, (sameFace_dart h (d' := ⟨e, (live_iff h).1 he⟩)).2 hs⟩

theorem card_darts : Nat.card (Dart rot) = 2 * g.M := by
  have := dart_finite h.weak
  rw [← cyc_one, ← h.count]
  obtain ⟨L, hL⟩ := exists_darts h (l := allArcs g rot) fun e he => (mem_allArcs h.links).1 he
  rw [← hL, List.length_map]
  refine cls_eq (r := SameCycle.setoid (1 : Perm (Dart rot))) ?_ ?_
  · have hn := nodup_allArcs h.links
    rw [← hL, List.nodup_iff_pairwise_ne, List.pairwise_map] at hn
    refine hn.imp ?_
    rintro a b hab ⟨i, hi⟩
    simp only [one_zpow, coe_one, id_eq] at hi
    exact hab (congrArg _ hi)
  · intro x
    have hx : x.1 ∈ L.map (·.1) := by rw [hL]; exact (mem_allArcs h.links).2 x.2
    obtain ⟨d, hd, he⟩ := List.mem_map.1 hx
    exact ⟨d, hd, by rw [Subtype.ext he]⟩

theorem joined_iff {d d' : Dart rot} : (joined (sg h.weak) (al h.weak)) d d' ↔ Joined g (own g d) (own g d') := by
  have := dart_finite h.weak
  constructor
  · intro hs
    let R : Setoid (Dart rot) :=
      { r := fun a b => Joined g (own g a) (own g b)
        iseqv := ⟨fun _ => .refl _, fun hab => joined_symm h hab, fun h1 h2 => Joined.trans h1 h2⟩ }
    have hle : joined (sg h.weak) (al h.weak) ≤ R := by
      refine sup_le ?_ ?_
      · exact cycle_le fun x => by
          show Joined g (own g x) (own g (sg h.weak x))
          rw [own_sg]; exact .refl _
      · exact cycle_le fun x => by
          show Joined g (own g x) (own g (al h.weak x))
          rw [own_al]
          exact .step (.refl _) ((arcTo_iff h).2 ⟨own_mem h.weak x, rfl⟩)
    exact hle hs
  · intro hJ
    have key : ∀ b, Joined g (own g d) b → ∀ d' : Dart rot, own g d' = b → (joined (sg h.weak) (al h.weak)) d d' := by
      intro b hb
      induction hb with
      | refl =>
        intro d' hd'
        exact (le_sup_left : SameCycle.setoid (sg h.weak) ≤ _) ((same_sg h.weak).2 hd'.symm)
      | step hb ha ih =>
        rename_i b c e
        intro d' hd'
        obtain ⟨he, hc⟩ := (arcTo_iff h).1 ha
        have h1 := ih ⟨e, b, he⟩ (own_eq h.weak he)
        have h2 : (joined (sg h.weak) (al h.weak)) ⟨e, b, he⟩ (al h.weak ⟨e, b, he⟩) :=
          (le_sup_right : SameCycle.setoid (al h.weak) ≤ _) (same_step _ _)
        have h3 : (joined (sg h.weak) (al h.weak)) (al h.weak ⟨e, b, he⟩) d' :=
          (le_sup_left : SameCycle.setoid (sg h.weak) ≤ _) ((same_sg h.weak).2 (by
            rw [own_al, hd']; exact hc))
        exact Setoid.trans' _ h1 (Setoid.trans' _ h2 h3)
    exact key _ hJ d' rfl

theorem adjacent_some {v : Nat} : (∃ w, Adjacent g v w) ↔ rot v ≠ [] := by
  constructor
  · rintro ⟨w, hw⟩ hc
    rw [adjacent_iff h, hc] at hw
    cases hw
  · intro hne
    obtain ⟨e, he⟩ := List.exists_mem_of_ne_nil _ hne
    exact ⟨_, (adjacent_iff h).2 (List.mem_map.2 ⟨e, he, rfl⟩)⟩

end

section
variable {s : PGraph} {rot : Nat → List Nat} (h : PInv s rot)
include h

/-- Darts at given vertices. -/
theorem exists_darts_at {l : List Nat} (hl : ∀ v ∈ l, rot v ≠ []) : ∃ L : List (Dart rot), L.map (own s.g) = l := by
  induction l with
  | nil => exact ⟨[], rfl⟩
  | cons v l ih =>
    obtain ⟨L, hL⟩ := ih fun w hw => hl w (by simp [hw])
    obtain ⟨e, he⟩ := List.exists_mem_of_ne_nil _ (hl v (by simp))
    exact ⟨⟨e, v, he⟩ :: L, by rw [List.map_cons, hL, own_of h.inv.weak he]⟩

theorem comp_count {D : List Nat} (hD : Transversal (fun v => IsPrimary s v ∧ ∃ w, Adjacent s.g v w) (Joined s.g) D) :
    cls (joined (sg h.inv.weak) (al h.inv.weak)) = D.length := by
  have := dart_finite h.inv.weak
  obtain ⟨L, rfl⟩ := exists_darts_at h fun v hv => (adjacent_some h.inv).1 (hD.mem v hv).2
  rw [List.length_map]
  refine cls_eq ?_ ?_
  · have := hD.apart
    rw [List.pairwise_map] at this
    exact this.imp fun hab hc => hab ((joined_iff h.inv).1 hc)
  · intro x
    have hx := own_mem h.inv.weak x
    obtain ⟨a, ha, hj⟩ := hD.all (own s.g x) ⟨h.prim _ _ hx, (adjacent_some h.inv).2 (List.ne_nil_of_mem hx)⟩
    obtain ⟨d, hd, rfl⟩ := List.mem_map.1 ha
    exact ⟨d, hd, (joined_iff h.inv).2 hj⟩

/-- Vertices with arcs. -/
def edgedVerts (s : PGraph) (rot : Nat → List Nat) : List Nat := (List.range' 1 s.g.N).filter fun v => !(rot v).isEmpty

omit h in
theorem mem_edgedVerts {v : Nat} : v ∈ edgedVerts s rot ↔ IsPrimary s v ∧ rot v ≠ [] := by
  unfold edgedVerts IsPrimary
  simp only [List.mem_filter, List.mem_range'_1, Bool.not_eq_true', List.isEmpty_eq_false_iff]
  constructor
  · rintro ⟨⟨h1, h2⟩, h3⟩; exact ⟨⟨h1, by omega⟩, h3⟩
  · rintro ⟨⟨h1, h2⟩, h3⟩; exact ⟨⟨h1, by omega⟩, h3⟩

theorem vert_count : cyc (sg h.inv.weak) = (edgedVerts s rot).length := by
  have := dart_finite h.inv.weak
  obtain ⟨L, hL⟩ := exists_darts_at h (l := edgedVerts s rot) fun v hv => (mem_edgedVerts.1 hv).2
  rw [← hL, List.length_map]
  refine cls_eq (r := SameCycle.setoid (sg h.inv.weak)) ?_ ?_
  · have hn : (edgedVerts s rot).Nodup := List.Nodup.filter _ List.nodup_range'
    rw [← hL, List.nodup_iff_pairwise_ne, List.pairwise_map] at hn
    exact hn.imp fun hab hc => hab ((same_sg h.inv.weak).1 hc)
  · intro x
    have hx := own_mem h.inv.weak x
    have : own s.g x ∈ L.map (own s.g) := by
      rw [hL]; exact mem_edgedVerts.2 ⟨h.prim _ _ hx, List.ne_nil_of_mem hx⟩
    obtain ⟨d, hd, he⟩ := List.mem_map.1 this
    exact ⟨d, hd, (same_sg h.inv.weak).2 he⟩

/-- An isolated vertex is a component of its own. -/
theorem joined_isolated {a b : Nat} (hj : Joined s.g a b) (ha : rot a = []) : a = b := by
  induction hj with
  | refl => rfl
  | step _ hb ih =>
    have hb := ((arcTo_iff h.inv).1 hb).1
    rw [← ih, ha] at hb
    cases hb

/-- Isolated vertices. -/
def bareVerts (s : PGraph) (rot : Nat → List Nat) : List Nat := (List.range' 1 s.g.N).filter fun v => (rot v).isEmpty

omit h in
theorem verts_split : (edgedVerts s rot).length + (bareVerts s rot).length = s.g.N := by
  unfold edgedVerts bareVerts
  have := List.length_eq_length_filter_add (l := List.range' 1 s.g.N) (fun v => (rot v).isEmpty)
  rw [List.length_range'] at this
  omega

theorem comps_split {C D : List Nat} (hC : Transversal (IsPrimary s) (Joined s.g) C)
    (hD : Transversal (fun v => IsPrimary s v ∧ ∃ w, Adjacent s.g v w) (Joined s.g) D) :
    C.length = D.length + (bareVerts s rot).length := by
  have hsplit := List.length_eq_length_filter_add (l := C) (fun v => (rot v).isEmpty)
  have hb : (C.filter fun v => (rot v).isEmpty).length = (bareVerts s rot).length := by
    apply List.Perm.length_eq
    rw [List.perm_ext_iff_of_nodup]
    · intro v
      unfold bareVerts
      simp only [List.mem_filter, List.mem_range'_1, List.isEmpty_iff]
      constructor
      · rintro ⟨h1, h2⟩
        have := hC.mem v h1
        exact ⟨⟨this.1, by have := this.2; omega⟩, h2⟩
      · rintro ⟨⟨h1, h2⟩, h3⟩
        obtain ⟨a, ha, hj⟩ := hC.all v ⟨h1, by omega⟩
        have := joined_isolated h (joined_symm h.inv hj) h3
        subst this
        exact ⟨ha, h3⟩
    · refine List.Nodup.filter _ ?_
      rw [List.nodup_iff_pairwise_ne]
      refine hC.apart.imp ?_
      rintro a b hab rfl
      exact hab (.refl _)
    · exact List.Nodup.filter _ List.nodup_range'
  have hd : (C.filter fun v => !(rot v).isEmpty).length = D.length := by
    refine transversal_length (dom := fun v => IsPrimary s v ∧ ∃ w, Adjacent s.g v w) (r := Joined s.g)
      (fun _ _ => joined_symm h.inv) (fun _ _ _ => Joined.trans) ⟨?_, ?_, ?_⟩ hD
    · intro v hv
      simp only [List.mem_filter, Bool.not_eq_true', List.isEmpty_eq_false_iff] at hv
      exact ⟨hC.mem v hv.1, (adjacent_some h.inv).2 hv.2⟩
    · exact hC.apart.filter _
    · rintro v ⟨hv, hne⟩
      obtain ⟨a, ha, hj⟩ := hC.all v hv
      refine ⟨a, ?_, hj⟩
      simp only [List.mem_filter, Bool.not_eq_true', List.isEmpty_eq_false_iff]
      refine ⟨ha, fun hc => ?_⟩
      have := joined_isolated h hj hc
      subst this
      exact (adjacent_some h.inv).1 hne hc
  omega

/-- Euler's inequality for a consistent graph. -/
theorem euler_graph {F C D : List Nat} (hc : Counted s F C D) : F.length + s.g.N ≤ s.g.M + C.length + D.length := by
  classical
  have := dart_finite h.inv.weak
  have h1 := euler_le (al_al h.inv.weak) (sg h.inv.weak)
  have h2 := cyc_involution (al_al h.inv.weak) (al_ne h.inv.weak)
  have h3 := face_count h.inv hc.faces
  have h4 := comp_count h hc.edged
  have h5 := vert_count h
  have h6 := comps_split h hc.comps hc.edged
  have h7 := verts_split (s := s) (rot := rot)
  have h8 := card_darts h.inv
  unfold ph at h3
  omega

/-- Plane embeddings are plane maps. -/
theorem plane_flat (hp : PlaneEmbedding s) : Flat (sg h.inv.weak) (al h.inv.weak) := by
  classical
  have := dart_finite h.inv.weak
  obtain ⟨F, C, D, hc, he⟩ := hp
  have h2 := cyc_involution (al_al h.inv.weak) (al_ne h.inv.weak)
  have h3 := face_count h.inv hc.faces
  have h4 := comp_count h hc.edged
  have h5 := vert_count h
  have h6 := comps_split h hc.comps hc.edged
  have h7 := verts_split (s := s) (rot := rot)
  have h8 := card_darts h.inv
  unfold ph at h3
  unfold Flat
  omega

end

end Test
end Verif
