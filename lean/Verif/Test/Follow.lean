import Verif.Test.Obstruct

/-
In a subdivision the paths can be followed.
-/
namespace Verif
namespace Test
open Graph Map Equiv Equiv.Perm Props DFS

theorem links_fst (m : List Nat) : ∀ a b, (links (a :: m ++ [b])).map (·.1) = a :: m := by
  induction m with
  | nil => intro a b; rfl
  | cons c m ih =>
    intro a b
    have : links (a :: (c :: m) ++ [b]) = (a, c) :: links (c :: m ++ [b]) := rfl
    rw [this, List.map_cons, ih]

theorem links_snd (m : List Nat) : ∀ a b, (links (a :: m ++ [b])).map (·.2) = m ++ [b] := by
  induction m with
  | nil => intro a b; rfl
  | cons c m ih =>
    intro a b
    have : links (a :: (c :: m) ++ [b]) = (a, c) :: links (c :: m ++ [b]) := rfl
    rw [this, List.map_cons, ih]
    rfl

theorem links_get {l : List Nat} {t : Nat} (ht : t + 1 < l.length) : (l[t]!, l[t + 1]!) ∈ links l := by
  unfold links
  rw [List.mem_iff_getElem]
  refine ⟨t, by simp; omega, ?_⟩
  rw [List.getElem_zip, List.getElem_tail, getElem!_pos l t (by omega), getElem!_pos l (t + 1) ht]

theorem count_flat_cons (a : Nat × Nat → Nat) (path : Nat × Nat → List Nat) (w : Nat) : ∀ E : List (Nat × Nat),
    (E.flatMap fun p => a p :: path p).count w = (E.map a).count w + (E.flatMap path).count w := by
  intro E
  induction E with
  | nil => rfl
  | cons p E ih =>
    simp only [List.flatMap_cons, List.map_cons, List.count_append, List.count_cons, ih]
    omega

theorem count_flat_snoc (a : Nat × Nat → Nat) (path : Nat × Nat → List Nat) (w : Nat) : ∀ E : List (Nat × Nat),
    (E.flatMap fun p => path p ++ [a p]).count w = (E.map a).count w + (E.flatMap path).count w := by
  intro E
  induction E with
  | nil => rfl
  | cons p E ih =>
    simp only [List.flatMap_cons, List.map_cons, List.count_append, List.count_cons, List.count_nil, ih]
    omega

/-- Numbers of steps from and to a vertex. -/
theorem steps_from (B : Nat → Nat) (path : Nat × Nat → List Nat) (E : List (Nat × Nat)) (w : Nat) :
    ((steps B path E).filter fun p => decide (p.1 = w)).length =
      (E.map fun p => B p.1).count w + (E.flatMap path).count w := by
  rw [← count_flat_cons]
  have h1 : (E.flatMap fun p => B p.1 :: path p) = (steps B path E).map (·.1) := by
    unfold steps
    rw [List.map_flatMap]
    exact List.flatMap_congr fun p _ => (links_fst _ _ _).symm
  rw [h1, List.count, List.countP_map, List.countP_eq_length_filter]
  congr 1

theorem steps_to (B : Nat → Nat) (path : Nat × Nat → List Nat) (E : List (Nat × Nat)) (w : Nat) :
    ((steps B path E).filter fun p => decide (p.2 = w)).length =
      (E.map fun p => B p.2).count w + (E.flatMap path).count w := by
  rw [← count_flat_snoc]
  have h1 : (E.flatMap fun p => path p ++ [B p.2]) = (steps B path E).map (·.2) := by
    unfold steps
    rw [List.map_flatMap]
    exact List.flatMap_congr fun p _ => (links_snd _ _ _).symm
  rw [h1, List.count, List.countP_map, List.countP_eq_length_filter]
  congr 1

theorem around_length (st : List (Nat × Nat)) (w : Nat) : (around st w).length =
    (st.filter fun p => decide (p.1 = w)).length + (st.filter fun p => decide (p.2 = w)).length := by
  unfold around
  rw [List.length_append, List.length_map, List.length_map]

section
variable {g : Graph} {rot : Nat → List Nat} (h : Inv g rot) {n : Nat} {E : List (Nat × Nat)} {B : Nat → Nat}
  {path : Nat × Nat → List Nat}
  (hnd : ((List.range n).map B ++ E.flatMap path).Nodup)
  (hpr : ∀ w ∈ (List.range n).map B ++ E.flatMap path, 1 ≤ w ∧ w ≤ g.N)
  (hnb : ∀ w, IsVertex g w → ∃ l, neighbors g w = some l ∧ l.Perm (around (steps B path E) w))
  (hE : ∀ p ∈ E, p.1 < n ∧ p.2 < n)

include h hnb in
theorem heads_perm {w : Nat} (h1 : 1 ≤ w) (h2 : w ≤ g.N) : (heads g (rot w)).Perm (around (steps B path E) w) := by
  have hw : IsVertex g w := vSize_iff.2 ⟨h1, by unfold vSize; omega⟩
  obtain ⟨l, e, hl⟩ := hnb w hw
  rw [neighbors_eq h (vSize_iff.1 hw).2] at e
  cases e
  exact hl

include h hnb in
theorem sub_deg {w : Nat} (h1 : 1 ≤ w) (h2 : w ≤ g.N) : (rot w).length =
    (E.map fun p => B p.1).count w + (E.map fun p => B p.2).count w + 2 * (E.flatMap path).count w := by
  have := (heads_perm h hnb h1 h2).length_eq
  rw [around_length, steps_from, steps_to] at this
  unfold heads at this
  rw [List.length_map] at this
  omega

include hnd in
theorem sub_inj {i j : Nat} (hi : i < n) (hj : j < n) (he : B i = B j) : i = j := by
  have := (List.nodup_append.1 hnd).1
  exact (List.nodup_map_iff_inj_on List.nodup_range).1 this i (List.mem_range.2 hi) j (List.mem_range.2 hj) he

include hnd in
theorem sub_apart {i w : Nat} (hi : i < n) (hw : w ∈ E.flatMap path) : B i ≠ w :=
  (List.nodup_append.1 hnd).2.2 _ (List.mem_map.2 ⟨i, List.mem_range.2 hi, rfl⟩) _ hw

include h hnd hpr hnb hE in
theorem sub_deg_branch {i : Nat} (hi : i < n) : (rot (B i)).length =
    (E.filter fun p => decide (p.1 = i)).length + (E.filter fun p => decide (p.2 = i)).length := by
  have hm : B i ∈ (List.range n).map B ++ E.flatMap path :=
    List.mem_append_left _ (List.mem_map.2 ⟨i, List.mem_range.2 hi, rfl⟩)
  rw [sub_deg h hnb (hpr _ hm).1 (hpr _ hm).2]
  have h0 : (E.flatMap path).count (B i) = 0 := List.count_eq_zero.2 fun hc => sub_apart hnd hi hc rfl
  rw [h0]
  have key : ∀ f : Nat × Nat → Nat, (∀ p ∈ E, f p < n) →
      (E.map fun p => B (f p)).count (B i) = (E.filter fun p => decide (f p = i)).length := by
    intro f hf
    rw [List.count, List.countP_map, List.countP_eq_length_filter]
    congr 1
    apply List.filter_congr
    intro p hp
    rw [Function.comp, Bool.eq_iff_iff, beq_iff_eq, decide_eq_true_eq]
    exact ⟨fun he => sub_inj hnd (hf p hp) hi he, fun he => by rw [he]⟩
  rw [key (·.1) (fun p hp => (hE p hp).1), key (·.2) (fun p hp => (hE p hp).2)]
  omega

include hnd hE in
theorem sub_inner {w : Nat} (hw : w ∈ E.flatMap path) :
    (E.map fun p => B p.1).count w = 0 ∧ (E.map fun p => B p.2).count w = 0 ∧ (E.flatMap path).count w = 1 := by
  refine ⟨List.count_eq_zero.2 fun hc => ?_, List.count_eq_zero.2 fun hc => ?_,
    List.count_eq_one_of_mem (List.nodup_append.1 hnd).2.1 hw⟩
  · obtain ⟨p, hp, he⟩ := List.mem_map.1 hc
    exact sub_apart hnd (hE p hp).1 hw he
  · obtain ⟨p, hp, he⟩ := List.mem_map.1 hc
    exact sub_apart hnd (hE p hp).2 hw he

include h hnd hpr hnb hE in
theorem sub_deg_inner {w : Nat} (hw : w ∈ E.flatMap path) : (rot w).length = 2 := by
  have hm := hpr w (List.mem_append_right _ hw)
  obtain ⟨h1, h2, h3⟩ := sub_inner hnd hE hw
  rw [sub_deg h hnb hm.1 hm.2, h1, h2, h3]

include h hnb hE in
theorem sub_deg_else {w : Nat} (h1 : 1 ≤ w) (h2 : w ≤ g.N) (hw : w ∉ E.flatMap path)
    (hb : ∀ i, i < n → w ≠ B i) : (rot w).length = 0 := by
  rw [sub_deg h hnb h1 h2, List.count_eq_zero.2 hw]
  have k1 : (E.map fun p => B p.1).count w = 0 := List.count_eq_zero.2 fun hc => by
    obtain ⟨p, hp, he⟩ := List.mem_map.1 hc
    exact hb _ (hE p hp).1 he.symm
  have k2 : (E.map fun p => B p.2).count w = 0 := List.count_eq_zero.2 fun hc => by
    obtain ⟨p, hp, he⟩ := List.mem_map.1 hc
    exact hb _ (hE p hp).2 he.symm
  rw [k1, k2]

include h hnd hpr hnb hE in
/-- The darts of a path. -/
theorem follow {p : Nat × Nat} (hp : p ∈ E) : ∃ d : Dart rot, ∀ j, j ≤ (path p).length + 1 →
    own g ((ph h.weak ^ j) d) = (B p.1 :: path p ++ [B p.2])[j]! := by
  set L := B p.1 :: path p ++ [B p.2] with hL
  have hLl : L.length = (path p).length + 2 := by rw [hL]; simp
  have hst : ∀ t, t + 1 < L.length → (L[t]!, L[t + 1]!) ∈ steps B path E := fun t ht =>
    List.mem_flatMap.2 ⟨p, hp, links_get ht⟩
  have hin : ∀ t, t < (path p).length → L[t + 1]! ∈ E.flatMap path := by
    intro t ht
    refine List.mem_flatMap.2 ⟨p, hp, ?_⟩
    rw [getElem!_pos L (t + 1) (by omega)]
    simp only [hL, List.cons_append, List.getElem_cons_succ]
    rw [List.getElem_append_left ht]
    exact List.getElem_mem _
  have hB1 : B p.1 ∈ (List.range n).map B ++ E.flatMap path :=
    List.mem_append_left _ (List.mem_map.2 ⟨p.1, List.mem_range.2 (hE p hp).1, rfl⟩)
  have h0 : L[0]! = B p.1 := rfl
  have hd : ∃ d : Dart rot, own g d = B p.1 ∧ (g.E d.1).nbr = L[1]! := by
    have k1 : L[1]! ∈ around (steps B path E) (B p.1) := by
      refine List.mem_append_left _ (List.mem_map.2 ⟨(L[0]!, L[1]!), List.mem_filter.2 ⟨hst 0 (by omega), ?_⟩, rfl⟩)
      exact decide_eq_true h0
    have k2 := (heads_perm h hnb (hpr _ hB1).1 (hpr _ hB1).2).symm.subset k1
    unfold heads at k2
    obtain ⟨e, he, k3⟩ := List.mem_map.1 k2
    exact ⟨⟨e, _, he⟩, own_of h.weak he, k3⟩
  obtain ⟨d, d1, d2⟩ := hd
  refine ⟨d, ?_⟩
  have key : ∀ t, t ≤ (path p).length → own g ((ph h.weak ^ t) d) = L[t]! ∧
      own g ((ph h.weak ^ (t + 1)) d) = L[t + 1]! := by
    intro t
    induction t with
    | zero =>
      intro _
      refine ⟨d1, ?_⟩
      rw [← nbr_pow]
      exact d2
    | succ t ih =>
      intro ht
      obtain ⟨i1, i2⟩ := ih (by omega)
      refine ⟨i2, ?_⟩
      have hw := hin t (by omega)
      have hw' := hpr _ (List.mem_append_right _ hw)
      have hdg := sub_deg_inner h hnd hpr hnb hE hw
      obtain ⟨c1, c2, c3⟩ := sub_inner hnd hE hw
      set w := L[t + 1]! with hwd
      have f1 : (steps B path E).filter (fun q => decide (q.1 = w)) = [(w, L[t + 1 + 1]!)] := by
        have l1 := steps_from B path E w
        rw [c1, c3] at l1
        obtain ⟨x, hx⟩ := List.length_eq_one_iff.1 l1
        have : (w, L[t + 1 + 1]!) ∈ (steps B path E).filter (fun q => decide (q.1 = w)) :=
          List.mem_filter.2 ⟨hst (t + 1) (by omega), decide_eq_true rfl⟩
        rw [hx] at this ⊢
        rw [List.mem_singleton.1 this]
      have f2 : (steps B path E).filter (fun q => decide (q.2 = w)) = [(L[t]!, w)] := by
        have l1 := steps_to B path E w
        rw [c2, c3] at l1
        obtain ⟨x, hx⟩ := List.length_eq_one_iff.1 l1
        have : (L[t]!, w) ∈ (steps B path E).filter (fun q => decide (q.2 = w)) :=
          List.mem_filter.2 ⟨hst t (by omega), decide_eq_true rfl⟩
        rw [hx] at this ⊢
        rw [List.mem_singleton.1 this]
      have hper := heads_perm h hnb hw'.1 hw'.2
      unfold around at hper
      rw [f1, f2] at hper
      simp only [List.map_cons, List.map_nil, List.singleton_append] at hper
      -- the two darts at the vertex
      set y := (ph h.weak ^ (t + 1)) d with hy
      set x := al h.weak ((ph h.weak ^ t) d) with hx
      have hyx : y = sg h.weak x := by rw [hy, hx, pow_succ', mul_apply]; rfl
      have hxo : own g x = w := by rw [← i2, hyx, own_sg]
      have hne : y ≠ x := by
        rw [hyx]
        exact (thread h.weak).move x (by unfold Deg2; rw [hxo]; exact hdg)
      have hxm : x.1 ∈ rot w := hxo ▸ own_mem h.weak x
      have hym : y.1 ∈ rot w := i2 ▸ own_mem h.weak y
      have hrp : [x.1, y.1].Perm (rot w) := by
        refine (List.subperm_of_subset ?_ ?_).perm_of_length_le (by rw [hdg]; rfl)
        · simp only [List.nodup_cons, List.mem_singleton, List.not_mem_nil, not_false_eq_true, List.nodup_nil, and_true]
          exact fun hc => hne (Subtype.ext hc.symm)
        · intro z hz
          simp only [List.mem_cons, List.not_mem_nil, or_false] at hz
          rcases hz with rfl | rfl
          · exact hxm
          · exact hym
      have hp2 := (hrp.map fun e => (g.E e).nbr).trans hper
      simp only [List.map_cons, List.map_nil] at hp2
      have hxn : (g.E x.1).nbr = L[t]! := by
        rw [← own_al h.weak x, hx, al_al, i1]
      rw [hxn] at hp2
      have hp3 := hp2.trans (List.Perm.swap _ _ _)
      have hp4 := (List.perm_cons _).1 hp3
      have hp5 : (g.E y.1).nbr = L[t + 1 + 1]! := by simpa using hp4
      rw [← nbr_pow]
      exact hp5
  intro j hj
  by_cases hj0 : j ≤ (path p).length
  · exact (key j hj0).1
  · have : j = (path p).length + 1 := by omega
    rw [this]
    exact (key _ le_rfl).2

include h hnd hpr hnb hE in
/-- The path of an edge that ends at a vertex of another degree. -/
theorem follow_end {p : Nat × Nat} (hp : p ∈ E) (h2 : (rot (B p.2)).length ≠ 2) :
    ∃ d : Dart rot, own g d = B p.1 ∧ fin h.weak d = B p.2 ∧ ins h.weak d = path p := by
  obtain ⟨d, hd⟩ := follow h hnd hpr hnb hE hp
  have hin : ∀ t, (ht : t < (path p).length) → own g ((ph h.weak ^ (t + 1)) d) = (path p)[t] := by
    intro t ht
    rw [hd _ (by omega), getElem!_pos _ (t + 1) (by simp; omega)]
    simp only [List.cons_append, List.getElem_cons_succ]
    rw [List.getElem_append_left ht]
  have hend : own g ((ph h.weak ^ ((path p).length + 1)) d) = B p.2 := by
    rw [hd _ le_rfl, getElem!_pos _ _ (by simp)]
    simp only [List.cons_append, List.getElem_cons_succ]
    rw [List.getElem_append_right le_rfl]
    simp
  have hl : plen h.weak d = (path p).length := by
    refine len_eq ?_ ?_
    · intro i hi
      show (rot (own g ((ph h.weak ^ (i + 1)) d))).length = 2
      rw [hin i hi]
      exact sub_deg_inner h hnd hpr hnb hE (List.mem_flatMap.2 ⟨p, hp, List.getElem_mem _⟩)
    · intro hc
      apply h2
      rw [← hend]
      exact hc
  refine ⟨d, hd 0 (by omega), ?_, ?_⟩
  · rw [fin_eq, hl, hend]
  · unfold ins
    rw [hl]
    apply List.ext_getElem
    · simp
    · intro i a1 a2
      rw [List.getElem_map, List.getElem_range]
      exact hin i a2

end

/-- What the tests use of a subdivision. -/
theorem realised_of {g : Graph} {rot : Nat → List Nat} (h : Inv g rot) {n : Nat} {E : List (Nat × Nat)}
    (hs : IsSubdivision g n E) (hE : ∀ p ∈ E, p.1 < n ∧ p.2 < n ∧ p.1 ≠ p.2) (hEn : E.Nodup)
    (hEs : ∀ p ∈ E, (p.2, p.1) ∉ E) (hne : E ≠ [])
    (hdg : ∀ i, i < n → (E.filter fun p => decide (p.1 = i)).length + (E.filter fun p => decide (p.2 = i)).length ≠ 2) :
    ∃ B c, Realised h n E B c ∧ (∀ i, i < n → 1 ≤ B i ∧ B i ≤ g.N) ∧
      (∀ v, 1 ≤ v → v ≤ g.N → (rot v).length = 0 ∨ (rot v).length = 2 ∨ ∃ i, i < n ∧ v = B i) ∧
      ∀ v, 1 ≤ v → v ≤ g.N → (rot v).length = 2 → ∃ p ∈ E, v ∈ ins h.weak (c p) := by
  obtain ⟨B, path, hnd, hpr, hnb⟩ := hs
  have hE' : ∀ p ∈ E, p.1 < n ∧ p.2 < n := fun p hp => ⟨(hE p hp).1, (hE p hp).2.1⟩
  have hB : ∀ i, i < n → (rot (B i)).length ≠ 2 ∧
      (rot (B i)).length = (E.filter fun p => p.1 = i).length + (E.filter fun p => p.2 = i).length := by
    intro i hi
    have := sub_deg_branch h hnd hpr hnb hE' hi
    exact ⟨by rw [this]; exact hdg i hi, this⟩
  have hc : ∀ p ∈ E, ∃ d : Dart rot, own g d = B p.1 ∧ fin h.weak d = B p.2 ∧ ins h.weak d = path p :=
    fun p hp => follow_end h hnd hpr hnb hE' hp (hB _ (hE' p hp).2).1
  obtain ⟨q, hq⟩ := List.exists_mem_of_ne_nil E hne
  have : Nonempty (Dart rot) := ⟨(hc q hq).choose⟩
  choose! c c1 c2 c3 using hc
  have hm : ∀ v, 1 ≤ v → v ≤ g.N → (rot v).length = 0 ∨ v ∈ E.flatMap path ∨ ∃ i, i < n ∧ v = B i := by
    intro v h1 h2
    by_cases hv : v ∈ E.flatMap path
    · exact .inr (.inl hv)
    · by_cases hb : ∃ i, i < n ∧ v = B i
      · exact .inr (.inr hb)
      · exact .inl (sub_deg_else h hnb hE' h1 h2 hv fun i hi he => hb ⟨i, hi, he⟩)
  refine ⟨B, c, ⟨hE, hEn, hEs, fun i j hi hj he => sub_inj hnd hi hj he, hB, c1, c2⟩,
    fun i hi => hpr _ (List.mem_append_left _ (List.mem_map.2 ⟨i, List.mem_range.2 hi, rfl⟩)), ?_, ?_⟩
  · intro v h1 h2
    rcases hm v h1 h2 with k | k | k
    · exact .inl k
    · exact .inr (.inl (sub_deg_inner h hnd hpr hnb hE' k))
    · exact .inr (.inr k)
  · intro v h1 h2 h3
    rcases hm v h1 h2 with k | k | ⟨i, hi, rfl⟩
    · omega
    · obtain ⟨p, hp, k⟩ := List.mem_flatMap.1 k
      exact ⟨p, hp, by rw [c3 p hp]; exact k⟩
    · exact absurd h3 (hB i hi).1

end Test
end Verif
