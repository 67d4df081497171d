import Verif.DFS.Forest
import Mathlib.Order.Lattice.Nat

/-
gp_LowpointAndLeastAncestor and gp_LeastAncestor on a sorted depth-first search forest.
-/
namespace Verif.DFS
open Verif Verif.Graph Verif.Props Function PGraph

/-- The state during the computation: visited marks `D`, the two results and the stack vary. -/
def st (s : PGraph) (D : List Nat) (la low : Nat → Nat) (stk : List Nat) : PGraph :=
  { s with
    g := { s.g with
      V := fun v => { s.g.V v with flags := vflags s.g.N (s.g.V v).flags v D }
      stack := stk }
    VI := fun v => { s.VI v with leastAncestor := la v, lowpoint := low v } }

variable {s : PGraph} {rot : Nat → List Nat} {D : List Nat} {la low : Nat → Nat} {stk : List Nat}

theorem st_congr {D' : List Nat} {la' low' : Nat → Nat} (h : ∀ x, x ∈ D ↔ x ∈ D') (hla : la = la') (hlow : low = low') :
    st s D la low stk = st s D' la' low' stk := by
  subst hla hlow
  unfold st vflags
  simp only [h]

theorem visited_st {v : Nat} (h1 : 1 ≤ v) (h2 : v ≤ s.g.N) : (st s D la low stk).g.visited v = some (decide (v ∈ D)) := by
  have hv : v < (st s D la low stk).g.vSize := by simp only [st, vSize]; omega
  simp only [visited, rdV, hv, if_true, Option.bind_eq_bind, Option.bind_some, Option.pure_def]
  simp only [st, vflags, h1, h2, and_self, if_true]
  by_cases hm : v ∈ D
  · simp [hm, even_or]
  · simp only [hm, if_false, Nat.or_zero, decide_false]
    simp

theorem setVisited_st {u : Nat} (h1 : 1 ≤ u) (h2 : u ≤ s.g.N) :
    (st s D la low stk).g.setVisited u = some (st s (u :: D) la low stk).g := by
  have hv : u < (st s D la low stk).g.vSize := by simp only [st, vSize]; omega
  simp only [setVisited, rdV, wrV, hv, if_true, Option.bind_eq_bind, Option.bind_some]
  congr 1
  simp only [st]
  congr 1
  funext v
  by_cases hvu : v = u
  · subst hvu
    rw [update_self]
    simp only [vflags, h1, h2, and_self, if_true, List.mem_cons, true_or]
    split
    · simp
    · simp
  · rw [update_of_ne hvu]
    simp only [vflags, List.mem_cons, hvu, false_or]

theorem links_st (h : Inv s.g rot) : Links (st s D la low stk).g rot :=
  h.links.congr rfl rfl (fun _ _ => rfl) (fun _ b => by cases b <;> rfl)

theorem walkFrom_st (h : Inv s.g rot) {u : Nat} (hu : u < s.g.vSize) :
    ∃ f, (st s D la low stk).g.getArc u false = some f ∧
      (st s D la low stk).g.walkFrom false (st s D la low stk).g.eSize f = some (rot u) := by
  have := walk_eq (links_st (D := D) (la := la) (low := low) (stk := stk) h) (v := u) hu false
  unfold walk at this
  cases hf : (st s D la low stk).g.getArc u false with
  | none => simp [hf] at this
  | some f => exact ⟨f, rfl, by simpa [hf, dir] using this⟩

/-- Type of an arc. -/
def tyOf (s : PGraph) (e : Nat) : Nat := (s.g.E e).flags &&& 14

theorem getType_st {e : Nat} (he : e < s.g.eSize) : (st s D la low stk).g.getType e = some (tyOf s e) := by
  have : e < (st s D la low stk).g.eSize := he
  simp only [getType, rdE, this, if_true]; rfl

theorem getNbr_st {e : Nat} (he : e < s.g.eSize) : (st s D la low stk).g.getNbr e = some (hdOf s e) := by
  have : e < (st s D la low stk).g.eSize := he
  simp only [getNbr, rdE, this, if_true]; rfl

theorem push_st (a : Nat) (h : stk.length < s.g.stackCap) :
    (st s D la low stk).g.push a = some (st s D la low (a :: stk)).g := if_pos h

theorem rdVI_st {v : Nat} (h : v ≤ s.g.N) : (st s D la low stk).rdVI v =
    some { s.VI v with leastAncestor := la v, lowpoint := low v } := if_pos (show v < 1 + s.g.N by omega)

/-- The loop shape shared by the scans: induction along the adjacency list. -/
theorem walkFrom_cons {g : Graph} {fuel e : Nat} {es : List Nat} (hw : g.walkFrom false fuel e = some es) :
    (e = 0 ∧ es = []) ∨ (e ≠ 0 ∧ ∃ fuel' n es', fuel = fuel' + 1 ∧ es = e :: es' ∧ g.getAdj e false = some n ∧
      g.walkFrom false fuel' n = some es') := by
  cases fuel with
  | zero =>
    simp only [walkFrom] at hw
    split at hw
    · next h => cases hw; exact .inl ⟨h, rfl⟩
    · cases hw
  | succ fuel =>
    simp only [walkFrom] at hw
    split at hw
    · next h => cases hw; exact .inl ⟨h, rfl⟩
    · next h =>
      right
      refine ⟨h, fuel, ?_⟩
      cases ha : g.getAdj e false with
      | none => simp [ha] at hw
      | some n =>
        simp only [ha, Option.bind_eq_bind, Option.bind_some] at hw
        cases hr : g.walkFrom false fuel n with
        | none => simp [hr] at hw
        | some es' =>
          simp only [hr, Option.bind_some, Option.pure_def, Option.some.injEq] at hw
          exact ⟨n, es', rfl, hw.symm, rfl, hr⟩

/-- Children and back ends of a list of arcs. -/
def kidsOf (s : PGraph) (es : List Nat) : List Nat := (es.filter fun e => tyOf s e = 14).map (hdOf s)
def backsOf (s : PGraph) (es : List Nat) : List Nat := (es.filter fun e => tyOf s e = 2).map (hdOf s)

theorem walkFrom_stk {es} {fuel e : Nat} {stk' : List Nat}
    (h : (st s D la low stk).g.walkFrom false fuel e = some es) : (st s D la low stk').g.walkFrom false fuel e = some es := by
  rw [← h]
  have : ∀ f x, (st s D la low stk').g.walkFrom false f x = (st s D la low stk).g.walkFrom false f x := by
    intro f
    induction f with
    | zero => intro x; rfl
    | succ f ihf => intro x; simp only [walkFrom, ihf]; rfl
  exact this _ _

theorem pushChildren_st : ∀ (es : List Nat) (fuel e : Nat) (stk : List Nat),
    (st s D la low stk).g.walkFrom false fuel e = some es → (∀ x ∈ es, x < s.g.eSize) →
    stk.length + (kidsOf s es).length ≤ s.g.stackCap →
    pushChildren fuel e (st s D la low stk).g = some (st s D la low ((kidsOf s es).reverse ++ stk)).g := by
  intro es
  induction es with
  | nil =>
    intro fuel e stk hw _ _
    rcases walkFrom_cons hw with ⟨rfl, _⟩ | ⟨_, _, _, _, _, h, _⟩
    · cases fuel <;> simp [pushChildren, kidsOf]
    · cases h
  | cons e es ih =>
    intro fuel e' stk hw hx hc
    rcases walkFrom_cons hw with ⟨_, h⟩ | ⟨he, fuel', n, es', rfl, h, ha, hr⟩
    · cases h
    · cases h
      have hlt := hx e (by simp)
      simp only [pushChildren, he, if_false, getType_st hlt, Option.bind_eq_bind, Option.bind_some, pushChild]
      by_cases ht : tyOf s e = 14
      · have hk : kidsOf s (e :: es) = hdOf s e :: kidsOf s es := by simp [kidsOf, ht]
        rw [hk, List.length_cons] at hc
        simp only [ht, if_true, getNbr_st hlt, Option.bind_some]
        have hp := push_st (s := s) (D := D) (la := la) (low := low) (stk := stk) (hdOf s e) (by omega)
        rw [hp, Option.bind_some]
        have ha' : (st s D la low (hdOf s e :: stk)).g.getAdj e false = some n := ha
        rw [ha', Option.bind_some, ih fuel' n _ (walkFrom_stk hr) (fun y hy => hx y (by simp [hy])) (by simp only [List.length_cons]; omega), hk]
        simp
      · have hk : kidsOf s (e :: es) = kidsOf s es := by simp [kidsOf, ht]
        rw [hk] at hc ⊢
        simp only [ht, if_false, Option.bind_some, ha]
        exact ih fuel' n _ hr (fun y hy => hx y (by simp [hy])) hc

theorem scanLow_st : ∀ (es : List Nat) (fuel e a l : Nat),
    (st s D la low stk).g.walkFrom false fuel e = some es → (∀ x ∈ es, x < s.g.eSize ∧ hdOf s x ≤ s.g.N) →
    (st s D la low stk).scanLow fuel e a l =
      some ((backsOf s es).foldl min a, ((kidsOf s es).map low).foldl min l) := by
  intro es
  induction es with
  | nil =>
    intro fuel e a l hw _
    rcases walkFrom_cons hw with ⟨rfl, _⟩ | ⟨_, _, _, _, _, h, _⟩
    · cases fuel <;> simp [scanLow, kidsOf, backsOf]
    · cases h
  | cons e es ih =>
    intro fuel e' a l hw hx
    rcases walkFrom_cons hw with ⟨_, h⟩ | ⟨he, fuel', n, es', rfl, h, ha, hr⟩
    · cases h
    · cases h
      have hlt := hx e (by simp)
      have hih := fun a l => ih fuel' n a l hr (fun y hy => hx y (by simp [hy]))
      simp only [scanLow, he, if_false, getType_st hlt.1, getNbr_st hlt.1, ha, Option.bind_eq_bind, Option.bind_some]
      by_cases ht : tyOf s e = 14
      · have hk : kidsOf s (e :: es) = hdOf s e :: kidsOf s es := by simp [kidsOf, ht]
        have hb : backsOf s (e :: es) = backsOf s es := by simp [backsOf, ht]
        have hr := rdVI_st (s := s) (D := D) (la := la) (low := low) (stk := stk) hlt.2
        simp only [ht, if_true, hr, Option.bind_some, hih, hk, hb, List.map_cons, List.foldl_cons]
        rw [show (if l > low (hdOf s e) then low (hdOf s e) else l) = min l (low (hdOf s e)) by split <;> omega]
      · have hk : kidsOf s (e :: es) = kidsOf s es := by simp [kidsOf, ht]
        simp only [ht, if_false]
        by_cases h2 : tyOf s e = 2
        · have hb : backsOf s (e :: es) = hdOf s e :: backsOf s es := by simp [backsOf, h2]
          simp only [h2, if_true, hih, hk, hb, List.foldl_cons]
          rw [show (if a > hdOf s e then hdOf s e else a) = min a (hdOf s e) by split <;> omega]
        · have hb : backsOf s (e :: es) = backsOf s es := by simp [backsOf, h2]
          simp only [h2, if_false, hih, hk, hb]

theorem foldl_min (l : List Nat) (a : Nat) : (l.foldl min a = a ∨ l.foldl min a ∈ l) ∧ l.foldl min a ≤ a ∧
    ∀ x ∈ l, l.foldl min a ≤ x := by
  induction l generalizing a with
  | nil => simp
  | cons y l ih =>
    obtain ⟨h1, h2, h3⟩ := ih (min a y)
    simp only [List.foldl_cons, List.mem_cons]
    refine ⟨?_, by omega, ?_⟩
    · rcases h1 with h1 | h1
      · rw [h1]
        rcases Nat.le_total a y with h | h
        · left; omega
        · right; left; omega
      · exact .inr (.inr h1)
    · rintro x (rfl | hx)
      · omega
      · exact h3 x hx

/-- The least ancestor. -/
noncomputable def LAf (s : PGraph) (rot : Nat → List Nat) (u : Nat) : Nat := (backsOf s (rot u)).foldl min u
/-- The lowpoint. -/
noncomputable def LOWf (s : PGraph) (rot : Nat → List Nat) (par : Nat → Nat) (u : Nat) : Nat :=
  sInf { x | ∃ w, IsPrimary s w ∧ AncEq par u w ∧ x = LAf s rot w }

variable {par : Nat → Nat}

theorem mem_kids (h : PInv s rot) (hF : Forest s id par) {u c : Nat} (hu : IsPrimary s u) :
    c ∈ kidsOf s (rot u) ↔ IsPrimary s c ∧ par c = u := by
  simp only [kidsOf, List.mem_map, List.mem_filter, decide_eq_true_eq]
  constructor
  · rintro ⟨e, ⟨he, ht⟩, rfl⟩
    have ha : ArcTo s.g u e (hdOf s e) := (arcTo_iff h.inv).2 ⟨he, rfl⟩
    have ht' : s.g.getType e = some 14 := (getType_eq (h.inv.links.arc u e he).2).2 ht
    refine ⟨(hF.ends _ _ _ ha).2, ?_⟩
    rcases hF.types _ _ _ ha with ⟨_, h1, _⟩ | ⟨_, ⟨h0, _⟩ | ⟨_, h1, _⟩ | ⟨_, h1, _⟩ | ⟨_, h1, _⟩⟩
    · rw [ht'] at h1; cases h1
    · exact h0
    · rw [ht'] at h1; cases h1
    · rw [ht'] at h1; cases h1
    · rw [ht'] at h1; cases h1
  · rintro ⟨hc, hp⟩
    obtain ⟨_, _, e, ⟨ha, ht⟩, _⟩ := hF.up c hc (by rw [hp]; have := hu.1; omega)
    rw [hp] at ha
    obtain ⟨he, h2⟩ := (arcTo_iff h.inv).1 ha
    exact ⟨e, ⟨he, (getType_eq (h.inv.links.arc u e he).2).1 ht⟩, h2⟩

theorem nodup_kids (h : PInv s rot) (hF : Forest s id par) {u : Nat} (hu : IsPrimary s u) : (kidsOf s (rot u)).Nodup := by
  refine List.Nodup.map_on ?_ ((h.inv.links.nodup u).filter _)
  intro e he e' he' hh
  have hk : hdOf s e ∈ kidsOf s (rot u) := List.mem_map.2 ⟨e, he, rfl⟩
  simp only [List.mem_filter, decide_eq_true_eq] at he he'
  obtain ⟨hc, hp⟩ := (mem_kids h hF hu).1 hk
  obtain ⟨_, _, e0, _, hun⟩ := hF.up _ hc (by rw [hp]; have := hu.1; omega)
  rw [hp] at hun
  rw [hun e ((arcTo_iff h.inv).2 ⟨he.1, rfl⟩) ((getType_eq (h.inv.links.arc u e he.1).2).2 he.2),
    hun e' ((arcTo_iff h.inv).2 ⟨he'.1, hh.symm⟩) ((getType_eq (h.inv.links.arc u e' he'.1).2).2 he'.2)]

/-- A proper descendant is a descendant of a child. -/
theorem anc_child {u w : Nat} (h : AncEq par u w) : u = w ∨ ∃ c, par c = u ∧ AncEq par c w := by
  induction h with
  | refl => exact .inl rfl
  | @up b h1 _ ih =>
    right
    rcases ih with h | ⟨c, hc, h⟩
    · exact ⟨b, h.symm, .refl _⟩
    · exact ⟨c, hc, .up h1 h⟩

theorem ancEq_num {num : Nat → Nat} (hF : Forest s num par) {a b : Nat} (h : AncEq par a b) (hb : IsPrimary s b) :
    num a ≤ num b := by
  induction h with
  | refl => exact Nat.le_refl _
  | up h1 _ ih =>
    have := hF.up _ hb h1
    exact Nat.le_trans (ih this.1) (Nat.le_of_lt this.2.1)

/-- Two ancestors of a vertex are related. -/
theorem ancEq_total {a b c : Nat} (h : AncEq par a c) (h' : AncEq par b c) : AncEq par a b ∨ AncEq par b a := by
  induction h with
  | refl => exact .inr h'
  | @up c h1 h2 ih =>
    cases h' with
    | refl => exact .inl (.up h1 h2)
    | up _ h4 => exact ih h4

theorem LOWf_eq (h : PInv s rot) (hF : Forest s id par) {u : Nat} (hu : IsPrimary s u) :
    LOWf s rot par u = min (LAf s rot u) (((kidsOf s (rot u)).map (LOWf s rot par)).foldl min u) := by
  have hu0 : u ≠ 0 := by have := hu.1; omega
  have hne : ∀ v, IsPrimary s v → { x | ∃ w, IsPrimary s w ∧ AncEq par v w ∧ x = LAf s rot w }.Nonempty :=
    fun v hv => ⟨_, v, hv, .refl _, rfl⟩
  have hLA : LAf s rot u ≤ u := (foldl_min _ _).2.1
  have hself : LOWf s rot par u ≤ LAf s rot u := Nat.sInf_le ⟨u, hu, .refl _, rfl⟩
  obtain ⟨f1, f2, f3⟩ := foldl_min ((kidsOf s (rot u)).map (LOWf s rot par)) u
  apply Nat.le_antisymm
  · refine Nat.le_min.2 ⟨hself, ?_⟩
    rcases f1 with f1 | f1
    · rw [f1]; omega
    · obtain ⟨c, hc, he⟩ := List.mem_map.1 f1
      rw [← he]
      obtain ⟨hcp, hpc⟩ := (mem_kids h hF hu).1 hc
      obtain ⟨w, hw, ha, he⟩ := Nat.sInf_mem (hne c hcp)
      refine Nat.sInf_le ⟨w, hw, ?_, he⟩
      exact AncEq.trans (.up (by rw [hpc]; exact hu0) (by rw [hpc]; exact .refl _)) ha
  · obtain ⟨w, hw, ha, he⟩ := Nat.sInf_mem (hne u hu)
    have he : LOWf s rot par u = LAf s rot w := he
    rcases anc_child ha with rfl | ⟨c, hc, ha⟩
    · omega
    · have hcp : IsPrimary s c := ancEq_primary hF ha hw
      have h1 := f3 _ (List.mem_map.2 ⟨c, (mem_kids h hF hu).2 ⟨hcp, hc⟩, rfl⟩)
      have h2 : LOWf s rot par c ≤ LAf s rot w := Nat.sInf_le ⟨w, hw, ha, rfl⟩
      omega

/-- `f` on `L`, `g` elsewhere. -/
def over (L : List Nat) (f g : Nat → Nat) (x : Nat) : Nat := if x ∈ L then f x else g x

/-- With `K` on the stack the loop processes the subtrees `L` of `K`. -/
structure Run (s : PGraph) (rot : Nat → List Nat) (par : Nat → Nat) (K L : List Nat) : Prop where
  nodup : L.Nodup
  mem : ∀ x, x ∈ L ↔ IsPrimary s x ∧ ∃ c ∈ K, AncEq par c x
  le : K.length ≤ L.length
  run : ∀ D la low R k v, (∀ x ∈ L, x ∉ D) → R.length + L.length ≤ s.g.stackCap →
    lowLoop (k + 2 * L.length) v (st s D la low (K ++ R)) =
      lowLoop k (v + L.length) (st s (L ++ D) (over L (LAf s rot) la) (over L (LOWf s rot par) low) R)

theorem Run.nil : Run s rot par [] [] := by
  refine ⟨List.nodup_nil, by simp, Nat.le_refl _, ?_⟩
  intro D la low R k v _ _
  have : ∀ f g : Nat → Nat, over [] f g = g := by intro f g; funext x; simp [over]
  simp [this]

theorem Run.cons {c : Nat} {K L1 L2 : List Nat} (h1 : Run s rot par [c] L1) (h2 : Run s rot par K L2)
    (hd : ∀ x ∈ L1, x ∉ L2) : Run s rot par (c :: K) (L1 ++ L2) := by
  refine ⟨?_, ?_, ?_, ?_⟩
  · rw [List.nodup_append]
    exact ⟨h1.nodup, h2.nodup, fun x hx y hy he => hd x hx (he ▸ hy)⟩
  · intro x
    rw [List.mem_append, h1.mem, h2.mem]
    simp only [List.mem_cons, exists_eq_or_imp]
    simp only [List.not_mem_nil, false_and, exists_false, or_false]
    tauto
  · have := h1.le; have := h2.le
    simp only [List.length_cons, List.length_append, List.length_nil] at *; omega
  · intro D la low R k v hD hc
    rw [List.length_append] at hc ⊢
    have hK := h2.le
    have e1 := h1.run D la low (K ++ R) (k + 2 * L2.length) v (fun x hx => hD x (by simp [hx]))
      (by rw [List.length_append]; omega)
    rw [show k + 2 * (L1.length + L2.length) = k + 2 * L2.length + 2 * L1.length by omega]
    simp only [List.cons_append, List.nil_append] at e1 ⊢
    rw [e1, h2.run _ _ _ R k _ ?_ (by omega)]
    · rw [show v + L1.length + L2.length = v + (L1.length + L2.length) by omega]
      congr 1
      apply st_congr
      · intro x; simp only [List.mem_append]; tauto
      · funext x; simp only [over, List.mem_append]; split <;> simp_all
      · funext x; simp only [over, List.mem_append]; split <;> simp_all
    · intro x hx
      rw [List.mem_append, not_or]
      exact ⟨fun h => hd x h hx, hD x (by simp [hx])⟩

theorem Run.node (h : PInv s rot) (hF : Forest s id par) {u : Nat} (hu : IsPrimary s u) {L : List Nat}
    (hr : Run s rot par (kidsOf s (rot u)).reverse L) : Run s rot par [u] (u :: L) := by
  have hu0 : u ≠ 0 := by have := hu.1; omega
  have huL : u ∉ L := by
    intro hm
    obtain ⟨_, c, hc, ha⟩ := (hr.mem u).1 hm
    rw [List.mem_reverse] at hc
    obtain ⟨hc1, hc2⟩ := (mem_kids h hF hu).1 hc
    have h1 := ancEq_num hF ha hu
    have h2 := (hF.up c hc1 (by rw [hc2]; exact hu0)).2.1
    rw [hc2] at h2
    simp only [id] at h1 h2
    omega
  have harc : ∀ x ∈ rot u, x < s.g.eSize ∧ hdOf s x ≤ s.g.N := fun x hx =>
    ⟨(h.inv.links.arc u x hx).2, (h.prim _ _ (h.inv.twins u x hx)).2⟩
  refine ⟨List.nodup_cons.2 ⟨huL, hr.nodup⟩, ?_, ?_, ?_⟩
  · intro x
    rw [List.mem_cons, hr.mem]
    simp only [List.mem_reverse, List.mem_singleton, exists_eq_left]
    constructor
    · rintro (rfl | ⟨hx, c, hc, ha⟩)
      · exact ⟨hu, .refl _⟩
      · obtain ⟨hc1, hc2⟩ := (mem_kids h hF hu).1 hc
        exact ⟨hx, AncEq.trans (.up (by rw [hc2]; exact hu0) (by rw [hc2]; exact .refl _)) ha⟩
    · rintro ⟨hx, ha⟩
      rcases anc_child ha with rfl | ⟨c, hc, ha⟩
      · exact .inl rfl
      · exact .inr ⟨hx, c, (mem_kids h hF hu).2 ⟨ancEq_primary hF ha hx, hc⟩, ha⟩
  · simp
  · intro D la low R k v hD hc
    have hlen := hr.le
    rw [List.length_reverse] at hlen
    rw [List.length_cons] at hc ⊢
    have huD : u ∉ D := hD u (by simp)
    have hvs : u < s.g.vSize := by have := hu.2; unfold vSize; omega
    -- first pop
    have step1 : lowLoop (k + 2 * (L.length + 1)) v (st s D la low ([u] ++ R)) =
        lowLoop (k + 1 + 2 * L.length) (v + 1) (st s (u :: D) la low ((kidsOf s (rot u)).reverse ++ (u :: R))) := by
      rw [show k + 2 * (L.length + 1) = (k + 1 + 2 * L.length) + 1 by omega]
      have e0 : (st s D la low ([u] ++ R)).g.stack = u :: R := rfl
      simp only [lowLoop]
      rw [e0]
      simp only
      have e1 : (st s D la low ([u] ++ R)).setG { (st s D la low ([u] ++ R)).g with stack := R } = st s D la low R := rfl
      rw [e1]
      unfold lowBody
      rw [visited_st hu.1 hu.2]
      simp only [huD, decide_false, Bool.not_false, if_true, Option.bind_eq_bind, Option.bind_some]
      rw [setVisited_st hu.1 hu.2, Option.bind_some, push_st u (by omega), Option.bind_some]
      obtain ⟨f, hf, hw⟩ := walkFrom_st (D := u :: D) (la := la) (low := low) (stk := u :: R) h.inv hvs
      rw [hf, Option.bind_some, pushChildren_st (rot u) _ _ _ hw (fun x hx => (harc x hx).1)
        (by simp only [List.length_cons]; omega)]
      rfl
    rw [step1, hr.run _ _ _ _ _ _ ?_ (by simp only [List.length_cons]; omega)]
    swap
    · intro x hx
      rw [List.mem_cons, not_or]
      exact ⟨fun he => huL (he ▸ hx), hD x (by simp [hx])⟩
    -- second pop
    simp only [lowLoop]
    have e0 : ∀ D la low, (st s D la low (u :: R)).g.stack = u :: R := fun _ _ _ => rfl
    rw [e0]
    simp only
    have e1 : ∀ D la low, (st s D la low (u :: R)).setG { (st s D la low (u :: R)).g with stack := R } = st s D la low R :=
      fun _ _ _ => rfl
    rw [e1]
    unfold lowBody
    rw [visited_st hu.1 hu.2]
    simp only [List.mem_append, List.mem_cons, true_or, or_true, decide_true, Bool.not_true, Bool.false_eq_true, if_false,
      Option.bind_eq_bind, Option.bind_some]
    obtain ⟨f, hf, hw⟩ := walkFrom_st (D := L ++ u :: D) (la := over L (LAf s rot) la)
      (low := over L (LOWf s rot par) low) (stk := R) h.inv hvs
    rw [hf, Option.bind_some, scanLow_st (rot u) _ _ _ _ hw harc, Option.bind_some]
    have hk : (kidsOf s (rot u)).map (over L (LOWf s rot par) low) = (kidsOf s (rot u)).map (LOWf s rot par) := by
      apply List.map_congr_left
      intro c hc
      have hcm : c ∈ L := by
        rw [hr.mem]
        exact ⟨((mem_kids h hF hu).1 hc).1, c, by simpa using hc, .refl _⟩
      simp [over, hcm]
    rw [hk]
    simp only [rdVI_st hu.2, Option.bind_some]
    have hlow : ∀ a l : Nat, (if a < l then a else l) = min a l := by intro a l; split <;> omega
    rw [hlow]
    have hwr : ∀ D la low a b, (st s D la low R).wrVI u { s.VI u with leastAncestor := a, lowpoint := b } =
        some (st s D (update la u a) (update low u b) R) := by
      intro D la low a b
      refine (if_pos (show u < 1 + s.g.N by have := hu.2; omega)).trans ?_
      congr 1
      unfold st
      simp only
      congr 1
      funext v
      by_cases hv : v = u
      · subst hv; simp
      · simp [update_of_ne hv]
    have hrec : ∀ a b, ({ s.VI u with leastAncestor := a, lowpoint := b } : VInfo) =
      { ({ s.VI u with leastAncestor := over L (LAf s rot) la u, lowpoint := over L (LOWf s rot par) low u } : VInfo) with
        leastAncestor := a, lowpoint := b } := fun _ _ => rfl
    rw [← hrec, hwr]
    simp only [Option.bind_some, Option.pure_def]
    rw [show v + 1 + L.length = v + (L.length + 1) by omega]
    congr 1
    apply st_congr
    · intro x; simp only [List.mem_append, List.mem_cons]; tauto
    · funext x
      by_cases hx : x = u
      · subst hx; simp [over, LAf]
      · simp [over, hx]
    · funext x
      by_cases hx : x = u
      · subst hx; rw [update_self]; simp only [over, List.mem_cons, true_or, if_true]
        exact (LOWf_eq h hF hu).symm
      · simp [over, hx]

/-- Distinct children have disjoint subtrees. -/
theorem kids_disjoint (hF : Forest s id par) {u c c' x : Nat} (hc : IsPrimary s c) (hc' : IsPrimary s c') (hu : u ≠ 0)
    (h1 : par c = u) (h2 : par c' = u) (hne : c ≠ c') (ha : AncEq par c x) (ha' : AncEq par c' x) : False := by
  have key : ∀ a b, IsPrimary s a → IsPrimary s b → par a = u → par b = u → a ≠ b → AncEq par a b → False := by
    intro a b hpa hpb h1 h2 hne h
    rcases h.cases with h | ⟨_, h⟩
    · exact hne h
    · rw [h2] at h
      have hup := hF.up a hpa (by rw [h1]; exact hu)
      rw [h1] at hup
      have h3 := ancEq_num hF h hup.1
      have h4 := hup.2.1
      simp only [id] at h3 h4; omega
  rcases ancEq_total ha ha' with h | h
  · exact key c c' hc hc' h1 h2 hne h
  · exact key c' c hc' hc h2 h1 (Ne.symm hne) h

theorem Run.list (hF : Forest s id par) {u : Nat} (hu : u ≠ 0) : ∀ (K : List Nat), K.Nodup →
    (∀ c ∈ K, IsPrimary s c ∧ par c = u ∧ ∃ L, Run s rot par [c] L) → ∃ L, Run s rot par K L := by
  intro K
  induction K with
  | nil => intro _ _; exact ⟨[], Run.nil⟩
  | cons c K ih =>
    intro hnd hK
    rw [List.nodup_cons] at hnd
    obtain ⟨L2, h2⟩ := ih hnd.2 fun c' hc' => hK c' (by simp [hc'])
    obtain ⟨hc, hpc, L1, h1⟩ := hK c (by simp)
    refine ⟨L1 ++ L2, Run.cons h1 h2 ?_⟩
    intro x hx1 hx2
    obtain ⟨_, a, ha, hax⟩ := (h1.mem x).1 hx1
    rw [List.mem_singleton] at ha; subst ha
    obtain ⟨_, b, hb, hbx⟩ := (h2.mem x).1 hx2
    obtain ⟨hb1, hb2, _⟩ := hK b (by simp [hb])
    exact kids_disjoint hF hc hb1 hu hpc hb2 (fun he => hnd.1 (he ▸ hb)) hax hbx

theorem Run.tree (h : PInv s rot) (hF : Forest s id par) {u : Nat} (hu : IsPrimary s u) : ∃ L, Run s rot par [u] L := by
  induction hk : s.g.N - u using Nat.strong_induction_on generalizing u with
  | _ k ih =>
    have hu0 : u ≠ 0 := by have := hu.1; omega
    obtain ⟨L, hL⟩ := Run.list (rot := rot) hF hu0 (kidsOf s (rot u)).reverse
      (List.nodup_reverse.2 (nodup_kids h hF hu)) (by
        intro c hc
        rw [List.mem_reverse] at hc
        obtain ⟨h1, h2⟩ := (mem_kids h hF hu).1 hc
        refine ⟨h1, h2, ih _ ?_ h1 rfl⟩
        have := (hF.up c h1 (by rw [h2]; exact hu0)).2.1
        rw [h2] at this
        simp only [id] at this
        have := h1.2
        omega)
    exact ⟨_, Run.node h hF hu hL⟩

/-- A set of consecutive numbers. -/
theorem interval_mem {L : List Nat} {v : Nat} (hnd : L.Nodup) (hv : v ∈ L) (hge : ∀ x ∈ L, v ≤ x)
    (hcl : ∀ x ∈ L, ∀ w, v ≤ w → w ≤ x → w ∈ L) (x : Nat) : x ∈ L ↔ v ≤ x ∧ x < v + L.length := by
  obtain ⟨m, hm, hmax⟩ : ∃ m ∈ L, ∀ x ∈ L, x ≤ m := by
    refine ⟨L.foldl max v, ?_, ?_⟩
    · have : ∀ (K : List Nat) a, K.foldl max a = a ∨ K.foldl max a ∈ K := by
        intro K
        induction K with
        | nil => intro a; simp
        | cons y K ih =>
          intro a
          simp only [List.foldl_cons, List.mem_cons]
          rcases ih (max a y) with h | h
          · rw [h]
            rcases Nat.le_total a y with h' | h'
            · right; left; omega
            · left; omega
          · exact .inr (.inr h)
      rcases this L v with h | h
      · rw [h]; exact hv
      · exact h
    · have : ∀ (K : List Nat) a, a ≤ K.foldl max a ∧ ∀ x ∈ K, x ≤ K.foldl max a := by
        intro K
        induction K with
        | nil => intro a; simp
        | cons y K ih =>
          intro a
          have := ih (max a y)
          simp only [List.foldl_cons, List.mem_cons]
          refine ⟨by omega, ?_⟩
          rintro x (rfl | hx)
          · omega
          · exact this.2 x hx
      exact (this L v).2
  have hmem : ∀ x, x ∈ L ↔ x ∈ List.range' v (m + 1 - v) := by
    intro x
    rw [List.mem_range'_1]
    have := hge m hm
    constructor
    · intro hx; have := hge x hx; have := hmax x hx; omega
    · intro hx; exact hcl m hm x hx.1 (by omega)
  have hp : L.Perm (List.range' v (m + 1 - v)) := (List.perm_ext_iff_of_nodup hnd (List.nodup_range')).2 hmem
  have hlen := hp.length_eq
  rw [List.length_range'] at hlen
  rw [hmem, List.mem_range'_1, hlen]

theorem lowLoop_nil {k v : Nat} : lowLoop k v (st s D la low []) = some (st s D la low [], v) := by
  cases k with
  | zero => rfl
  | succ k => rfl

/-- Results after the vertices below `v` were processed. -/
noncomputable def upTo (v : Nat) (f g : Nat → Nat) (x : Nat) : Nat := if 1 ≤ x ∧ x < v then f x else g x

theorem lowOuter_st (h : PInv s rot) (hF : Forest s id par) : ∀ (fuel v : Nat) (la low : Nat → Nat), 1 ≤ v → v ≤ s.g.N + 1 →
    s.g.N + 1 ≤ fuel + v →
    lowOuter fuel v (st s (List.range' 1 (v - 1)) (upTo v (LAf s rot) la) (upTo v (LOWf s rot par) low) []) =
      some (st s (List.range' 1 s.g.N) (upTo (s.g.N + 1) (LAf s rot) la) (upTo (s.g.N + 1) (LOWf s rot par) low) []) := by
  intro fuel
  induction fuel with
  | zero =>
    intro v la low h1 h2 h3
    have hv : v = s.g.N + 1 := by omega
    subst hv
    have : ¬ s.g.N + 1 ≤ (st s (List.range' 1 (s.g.N + 1 - 1)) (upTo (s.g.N + 1) (LAf s rot) la) (upTo (s.g.N + 1) (LOWf s rot par) low) []).g.N := by
      show ¬ s.g.N + 1 ≤ s.g.N; omega
    simp only [lowOuter, this, if_false]
    rfl
  | succ fuel ih =>
    intro v la low h1 h2 h3
    by_cases hv : v ≤ s.g.N
    · have hvp : IsPrimary s v := ⟨h1, hv⟩
      obtain ⟨L, hL⟩ := Run.tree h hF hvp
      have hLm : ∀ x, x ∈ L ↔ v ≤ x ∧ x < v + L.length := by
        apply interval_mem hL.nodup
        · rw [hL.mem]; exact ⟨hvp, v, by simp, .refl _⟩
        · intro x hx
          obtain ⟨hx, c, hc, ha⟩ := (hL.mem x).1 hx
          rw [List.mem_singleton] at hc; subst hc
          exact ancEq_num hF ha hx
        · intro x hx w hw1 hw2
          obtain ⟨hx, c, hc, ha⟩ := (hL.mem x).1 hx
          rw [List.mem_singleton] at hc; subst hc
          have hwp : IsPrimary s w := ⟨by omega, by have := hx.2; omega⟩
          exact (hL.mem w).2 ⟨hwp, c, by simp, hF.consecutive c w x hvp hwp hx ha hw1 hw2⟩
      have hL1 : 1 ≤ L.length := hL.le
      have hLN : v + L.length ≤ s.g.N + 1 := by
        have := ((hL.mem _).1 ((hLm (v + L.length - 1)).2 ⟨by omega, by omega⟩)).1.2
        omega
      have hcond : v ≤ (st s (List.range' 1 (v - 1)) (upTo v (LAf s rot) la) (upTo v (LOWf s rot par) low) []).g.N := hv
      simp only [lowOuter, hcond, if_true]
      rw [visited_st h1 hv]
      have hnm : v ∉ List.range' 1 (v - 1) := by rw [List.mem_range'_1]; omega
      simp only [hnm, decide_false, Option.bind_eq_bind, Option.bind_some, Bool.false_eq_true, if_false]
      rw [push_st v (by have := h.cap'; simp only [List.length_nil]; omega), Option.bind_some]
      have e1 : (st s (List.range' 1 (v - 1)) (upTo v (LAf s rot) la) (upTo v (LOWf s rot par) low) []).setG
          (st s (List.range' 1 (v - 1)) (upTo v (LAf s rot) la) (upTo v (LOWf s rot par) low) [v]).g =
          st s (List.range' 1 (v - 1)) (upTo v (LAf s rot) la) (upTo v (LOWf s rot par) low) ([v] ++ []) := rfl
      rw [e1]
      have e2 : 2 * (st s (List.range' 1 (v - 1)) (upTo v (LAf s rot) la) (upTo v (LOWf s rot par) low) [v]).g.N + 1 =
          (2 * s.g.N + 1 - 2 * L.length) + 2 * L.length := by show 2 * s.g.N + 1 = _; omega
      rw [e2, hL.run _ _ _ _ _ _ ?_ ?_, lowLoop_nil, Option.bind_some]
      · have := ih (v + L.length) la low (by omega) hLN (by omega)
        rw [← this]
        congr 1
        apply st_congr
        · intro x
          rw [List.mem_append, hLm, List.mem_range'_1, List.mem_range'_1]; omega
        · funext x
          simp only [over, upTo, hLm]
          split
          · rw [if_pos (by omega)]
          · split
            · rw [if_pos (by omega)]
            · rw [if_neg (by omega)]
        · funext x
          simp only [over, upTo, hLm]
          split
          · rw [if_pos (by omega)]
          · split
            · rw [if_pos (by omega)]
            · rw [if_neg (by omega)]
      · intro x hx
        rw [hLm] at hx
        rw [List.mem_range'_1]; omega
      · have := h.cap'; simp only [List.length_nil]; omega
    · have hv' : v = s.g.N + 1 := by omega
      subst hv'
      have : ¬ s.g.N + 1 ≤ (st s (List.range' 1 (s.g.N + 1 - 1)) (upTo (s.g.N + 1) (LAf s rot) la) (upTo (s.g.N + 1) (LOWf s rot par) low) []).g.N := by
        show ¬ s.g.N + 1 ≤ s.g.N; omega
      simp only [lowOuter, this, if_false]
      rfl

theorem clear_st (s : PGraph) : ∃ g, s.g.clearStack.clearVisitedAll = some g ∧ s.setG g =
    st s [] (fun v => (s.VI v).leastAncestor) (fun v => (s.VI v).lowpoint) [] := by
  refine ⟨_, clearVisitedAll_eq _, ?_⟩
  unfold st setG clearStack vflags
  simp

/-! ### What the two functions compute -/

theorem arcTo_st (h : PInv s rot) {u e w : Nat} : ArcTo (st s D la low stk).g u e w ↔ ArcTo s.g u e w := by
  have hI : Inv (st s D la low stk).g rot := h.inv.congr rfl rfl rfl rfl rfl (fun _ b => by cases b <;> rfl)
    (fun _ _ => rfl) (fun _ => rfl) (fun _ _ => rfl)
  rw [arcTo_iff hI, arcTo_iff h.inv]; rfl

theorem joined_st (h : PInv s rot) {a b : Nat} : Joined (st s D la low stk).g a b ↔ Joined s.g a b := by
  constructor
  · intro hj
    induction hj with
    | refl => exact .refl _
    | step _ ha ih => exact .step ih ((arcTo_st h).1 ha)
  · intro hj
    induction hj with
    | refl => exact .refl _
    | step _ ha ih => exact .step ih ((arcTo_st h).2 ha)

theorem forest_st {num : Nat → Nat} (h : PInv s rot) (hF : Forest s num par) : Forest (st s D la low stk) num par := by
  constructor
  · intro u hu
    have hlt : u < 1 + s.g.N := by have : u ≤ s.g.N := hu.2; omega
    have := hF.parent u hu
    simp only [getParent, rdVI, hlt, if_true] at this
    have hlt' : u < 1 + (st s D la low stk).g.N := hlt
    simp only [getParent, rdVI, hlt', if_true]
    exact this
  · exact hF.range
  · exact hF.inj
  · intro u hu hne
    obtain ⟨h1, h2, e, ⟨h3, h4⟩, h5⟩ := hF.up u hu hne
    exact ⟨h1, h2, e, ⟨(arcTo_st h).2 h3, h4⟩, fun e' ha => h5 e' ((arcTo_st h).1 ha)⟩
  · intro u hu
    obtain ⟨r, ⟨h1, h2, h3⟩, h4⟩ := hF.root u hu
    exact ⟨r, ⟨h1, h2, (joined_st h).2 h3⟩, fun r' h5 h6 h7 => h4 r' h5 h6 ((joined_st h).1 h7)⟩
  · intro u e w ha; exact hF.ends u e w ((arcTo_st h).1 ha)
  · intro u e w ha; exact hF.related u e w ((arcTo_st h).1 ha)
  · intro u e w ha; exact hF.types u e w ((arcTo_st h).1 ha)
  · exact hF.consecutive

theorem isLeast_st (h : PInv s rot) {u l : Nat} : IsLeastAncestor (st s D la low stk) u l ↔ IsLeastAncestor s u l := by
  unfold IsLeastAncestor
  simp only [arcTo_st h]
  rfl

theorem LAf_spec (h : PInv s rot) {u : Nat} : IsLeastAncestor s u (LAf s rot u) := by
  obtain ⟨h1, h2, h3⟩ := foldl_min (backsOf s (rot u)) u
  have key : ∀ w, w ∈ backsOf s (rot u) ↔ ∃ e, ArcTo s.g u e w ∧ s.g.getType e = some 2 := by
    intro w
    simp only [backsOf, List.mem_map, List.mem_filter, decide_eq_true_eq]
    constructor
    · rintro ⟨e, ⟨he, ht⟩, rfl⟩
      exact ⟨e, (arcTo_iff h.inv).2 ⟨he, rfl⟩, (getType_eq (h.inv.links.arc u e he).2).2 ht⟩
    · rintro ⟨e, ha, ht⟩
      obtain ⟨he, hn⟩ := (arcTo_iff h.inv).1 ha
      exact ⟨e, ⟨he, (getType_eq (h.inv.links.arc u e he).2).1 ht⟩, hn⟩
  refine ⟨?_, h2, fun e w ha ht => h3 w ((key w).2 ⟨e, ha, ht⟩)⟩
  rcases h1 with h1 | h1
  · exact .inl h1
  · exact .inr ((key _).1 h1)

theorem isLeast_unique {u a b : Nat} (ha : IsLeastAncestor s u a) (hb : IsLeastAncestor s u b) : a = b := by
  have key : ∀ {a b}, IsLeastAncestor s u a → IsLeastAncestor s u b → a ≤ b := by
    intro a b ha hb
    rcases hb.1 with h | ⟨e, h1, h2⟩
    · rw [h]; exact ha.2.1
    · exact ha.2.2 e b h1 h2
  exact Nat.le_antisymm (key ha hb) (key hb ha)

theorem LOWf_spec (h : PInv s rot) {u : Nat} (hu : IsPrimary s u) : IsLowpoint s par u (LOWf s rot par u) := by
  have hne : { x | ∃ w, IsPrimary s w ∧ AncEq par u w ∧ x = LAf s rot w }.Nonempty := ⟨_, u, hu, .refl _, rfl⟩
  refine ⟨?_, ?_⟩
  · obtain ⟨w, _, ha, he⟩ := Nat.sInf_mem hne
    refine ⟨w, ha, ?_⟩
    have he : LOWf s rot par u = LAf s rot w := he
    rw [he]; exact LAf_spec h
  · intro w a hw ha hl
    rw [isLeast_unique hl (LAf_spec h)]
    exact Nat.sInf_le ⟨w, hw, ha, rfl⟩

/-- The result of gp_LowpointAndLeastAncestor on a sorted forest. -/
theorem lowpoint_sorted (h : PInv s rot) (hF : Forest s id par) (hn : s.g.dfsNumbered = true) (hs : s.g.sortedByDfi = true) :
    ∃ D la low, s.lowpointAndLeastAncestor = some (st s D la low [], .ok) ∧
      ∀ u, IsPrimary s u → IsLeastAncestor s u (la u) ∧ IsLowpoint s par u (low u) := by
  obtain ⟨g, hg, hst⟩ := clear_st s
  have hlo := lowOuter_st h hF (s.g.N + 1) 1 (fun v => (s.VI v).leastAncestor) (fun v => (s.VI v).lowpoint)
    (Nat.le_refl _) (by omega) (by omega)
  have hup1 : ∀ f g : Nat → Nat, upTo 1 f g = g := by
    intro f g; funext x; unfold upTo; rw [if_neg (by omega)]
  rw [hup1, hup1] at hlo
  refine ⟨List.range' 1 s.g.N, upTo (s.g.N + 1) (LAf s rot) (fun v => (s.VI v).leastAncestor),
    upTo (s.g.N + 1) (LOWf s rot par) (fun v => (s.VI v).lowpoint), ?_, ?_⟩
  · have hes : s.ensureSorted = some (s, .ok) := by
      simp [ensureSorted, createDFSTree, hn, hs]
    have hcap := h.cap'
    have hgN : g.N = s.g.N := by have := congrArg (fun t => t.g.N) hst; exact this
    simp only [lowpointAndLeastAncestor, hes, Option.bind_eq_bind, Option.bind_some, ne_eq, not_true_eq_false, if_false,
      show ¬ s.g.stackCap < s.g.N by omega, hg, hst, hgN]
    simp only [Nat.sub_self, List.range'_zero] at hlo
    rw [hlo]
    rfl
  · intro u hu
    unfold upTo
    rw [if_pos ⟨hu.1, by have := hu.2; omega⟩, if_pos ⟨hu.1, by have := hu.2; omega⟩]
    exact ⟨LAf_spec h, LOWf_spec h hu⟩

/-! ### gp_LeastAncestor -/

theorem scanLeast_st : ∀ (es : List Nat) (fuel e a : Nat) (stk : List Nat),
    (st s D la low stk).g.walkFrom false fuel e = some es → (∀ x ∈ es, x < s.g.eSize) →
    stk.length + (kidsOf s es).length ≤ s.g.stackCap →
    scanLeast fuel e a (st s D la low stk).g =
      some ((st s D la low ((kidsOf s es).reverse ++ stk)).g, (backsOf s es).foldl min a) := by
  intro es
  induction es with
  | nil =>
    intro fuel e a stk hw _ _
    rcases walkFrom_cons hw with ⟨rfl, _⟩ | ⟨_, _, _, _, _, h, _⟩
    · cases fuel <;> simp [scanLeast, kidsOf, backsOf]
    · cases h
  | cons e es ih =>
    intro fuel e' a stk hw hx hc
    rcases walkFrom_cons hw with ⟨_, h⟩ | ⟨he, fuel', n, es', rfl, h, ha, hr⟩
    · cases h
    · cases h
      have hlt := hx e (by simp)
      simp only [scanLeast, he, if_false, getType_st hlt, getNbr_st hlt, Option.bind_eq_bind, Option.bind_some]
      by_cases ht : tyOf s e = 14
      · have hk : kidsOf s (e :: es) = hdOf s e :: kidsOf s es := by simp [kidsOf, ht]
        have hb : backsOf s (e :: es) = backsOf s es := by simp [backsOf, ht]
        rw [hk, List.length_cons] at hc
        simp only [ht, if_true]
        have hp := push_st (s := s) (D := D) (la := la) (low := low) (stk := stk) (hdOf s e) (by omega)
        rw [hp, Option.bind_some]
        have ha' : (st s D la low (hdOf s e :: stk)).g.getAdj e false = some n := ha
        rw [ha', Option.bind_some, ih fuel' n _ _ (walkFrom_stk hr) (fun y hy => hx y (by simp [hy])) (by simp only [List.length_cons]; omega), hk, hb]
        simp
      · have hk : kidsOf s (e :: es) = kidsOf s es := by simp [kidsOf, ht]
        rw [hk] at hc ⊢
        simp only [ht, if_false]
        by_cases h2 : tyOf s e = 2
        · have hb : backsOf s (e :: es) = hdOf s e :: backsOf s es := by simp [backsOf, h2]
          simp only [h2, if_true, ha, Option.bind_some, hb, List.foldl_cons]
          rw [show (if a > hdOf s e then hdOf s e else a) = min a (hdOf s e) by split <;> omega]
          exact ih fuel' n _ _ hr (fun y hy => hx y (by simp [hy])) hc
        · have hb : backsOf s (e :: es) = backsOf s es := by simp [backsOf, h2]
          simp only [h2, if_false, ha, Option.bind_some, hb]
          exact ih fuel' n _ _ hr (fun y hy => hx y (by simp [hy])) hc

/-- As `Run`, for gp_LeastAncestor. -/
structure RunA (s : PGraph) (rot : Nat → List Nat) (par : Nat → Nat) (K L : List Nat) : Prop where
  nodup : L.Nodup
  mem : ∀ x, x ∈ L ↔ IsPrimary s x ∧ ∃ c ∈ K, AncEq par c x
  le : K.length ≤ L.length
  run : ∀ D la low R k v, (∀ x ∈ L, x ∉ D) → R.length + L.length ≤ s.g.stackCap →
    leastLoop (k + L.length) v (st s D la low (K ++ R)) =
      leastLoop k (v + L.length) (st s (L ++ D) (over L (LAf s rot) la) low R)

theorem RunA.nil : RunA s rot par [] [] := by
  refine ⟨List.nodup_nil, by simp, Nat.le_refl _, ?_⟩
  intro D la low R k v _ _
  have : ∀ f g : Nat → Nat, over [] f g = g := by intro f g; funext x; simp [over]
  simp [this]

theorem RunA.cons {c : Nat} {K L1 L2 : List Nat} (h1 : RunA s rot par [c] L1) (h2 : RunA s rot par K L2)
    (hd : ∀ x ∈ L1, x ∉ L2) : RunA s rot par (c :: K) (L1 ++ L2) := by
  refine ⟨?_, ?_, ?_, ?_⟩
  · rw [List.nodup_append]
    exact ⟨h1.nodup, h2.nodup, fun x hx y hy he => hd x hx (he ▸ hy)⟩
  · intro x
    rw [List.mem_append, h1.mem, h2.mem]
    simp only [List.mem_cons, exists_eq_or_imp]
    simp only [List.not_mem_nil, false_and, exists_false, or_false]
    tauto
  · have := h1.le; have := h2.le
    simp only [List.length_cons, List.length_append, List.length_nil] at *; omega
  · intro D la low R k v hD hc
    rw [List.length_append] at hc ⊢
    have hK := h2.le
    have e1 := h1.run D la low (K ++ R) (k + L2.length) v (fun x hx => hD x (by simp [hx]))
      (by rw [List.length_append]; omega)
    rw [show k + (L1.length + L2.length) = k + L2.length + L1.length by omega]
    simp only [List.cons_append, List.nil_append] at e1 ⊢
    rw [e1, h2.run _ _ _ R k _ ?_ (by omega)]
    · rw [show v + L1.length + L2.length = v + (L1.length + L2.length) by omega]
      congr 1
      apply st_congr
      · intro x; simp only [List.mem_append]; tauto
      · funext x; simp only [over, List.mem_append]; split <;> simp_all
      · rfl
    · intro x hx
      rw [List.mem_append, not_or]
      exact ⟨fun h => hd x h hx, hD x (by simp [hx])⟩

theorem RunA.node (h : PInv s rot) (hF : Forest s id par) {u : Nat} (hu : IsPrimary s u) {L : List Nat}
    (hr : RunA s rot par (kidsOf s (rot u)).reverse L) : RunA s rot par [u] (u :: L) := by
  have hu0 : u ≠ 0 := by have := hu.1; omega
  have huL : u ∉ L := by
    intro hm
    obtain ⟨_, c, hc, ha⟩ := (hr.mem u).1 hm
    rw [List.mem_reverse] at hc
    obtain ⟨hc1, hc2⟩ := (mem_kids h hF hu).1 hc
    have h1 := ancEq_num hF ha hu
    have h2 := (hF.up c hc1 (by rw [hc2]; exact hu0)).2.1
    rw [hc2] at h2
    simp only [id] at h1 h2
    omega
  refine ⟨List.nodup_cons.2 ⟨huL, hr.nodup⟩, ?_, ?_, ?_⟩
  · intro x
    rw [List.mem_cons, hr.mem]
    simp only [List.mem_reverse, List.mem_singleton, exists_eq_left]
    constructor
    · rintro (rfl | ⟨hx, c, hc, ha⟩)
      · exact ⟨hu, .refl _⟩
      · obtain ⟨hc1, hc2⟩ := (mem_kids h hF hu).1 hc
        exact ⟨hx, AncEq.trans (.up (by rw [hc2]; exact hu0) (by rw [hc2]; exact .refl _)) ha⟩
    · rintro ⟨hx, ha⟩
      rcases anc_child ha with rfl | ⟨c, hc, ha⟩
      · exact .inl rfl
      · exact .inr ⟨hx, c, (mem_kids h hF hu).2 ⟨ancEq_primary hF ha hx, hc⟩, ha⟩
  · simp
  · intro D la low R k v hD hc
    have hlen := hr.le
    rw [List.length_reverse] at hlen
    rw [List.length_cons] at hc ⊢
    have huD : u ∉ D := hD u (by simp)
    have hvs : u < s.g.vSize := by have := hu.2; unfold vSize; omega
    have step1 : leastLoop (k + (L.length + 1)) v (st s D la low ([u] ++ R)) =
        leastLoop (k + L.length) (v + 1) (st s (u :: D) (update la u (LAf s rot u)) low ((kidsOf s (rot u)).reverse ++ R)) := by
      rw [show k + (L.length + 1) = (k + L.length) + 1 by omega]
      have e0 : (st s D la low ([u] ++ R)).g.stack = u :: R := rfl
      simp only [leastLoop]
      rw [e0]
      simp only
      have e1 : (st s D la low ([u] ++ R)).setG { (st s D la low ([u] ++ R)).g with stack := R } = st s D la low R := rfl
      rw [e1]
      unfold leastBody
      rw [visited_st hu.1 hu.2]
      simp only [huD, decide_false, Bool.not_false, if_true, Option.bind_eq_bind, Option.bind_some]
      rw [setVisited_st hu.1 hu.2, Option.bind_some]
      obtain ⟨f, hf, hw⟩ := walkFrom_st (D := u :: D) (la := la) (low := low) (stk := R) h.inv hvs
      rw [hf, Option.bind_some, scanLeast_st (rot u) _ _ _ _ hw (fun x hx => (h.inv.links.arc u x hx).2) (by omega), Option.bind_some]
      have e2 : (st s D la low R).setG (st s (u :: D) la low ((kidsOf s (rot u)).reverse ++ R)).g =
          st s (u :: D) la low ((kidsOf s (rot u)).reverse ++ R) := rfl
      simp only [e2, rdVI_st hu.2, Option.bind_some]
      have hwr : ∀ D la low a R, (st s D la low R).wrVI u { s.VI u with leastAncestor := a, lowpoint := low u } =
          some (st s D (update la u a) low R) := by
        intro D la low a R
        refine (if_pos (show u < 1 + s.g.N by have := hu.2; omega)).trans ?_
        congr 1
        unfold st
        simp only
        congr 1
        funext v
        by_cases hv : v = u
        · subst hv; simp
        · simp [update_of_ne hv]
      have := hwr (u :: D) la low ((backsOf s (rot u)).foldl min u) ((kidsOf s (rot u)).reverse ++ R)
      rw [this]
      rfl
    rw [step1, hr.run _ _ _ _ _ _ ?_ (by omega)]
    · rw [show v + 1 + L.length = v + (L.length + 1) by omega]
      congr 1
      apply st_congr
      · intro x; simp only [List.mem_append, List.mem_cons]; tauto
      · funext x
        by_cases hx : x = u
        · subst hx; simp [over, huL]
        · simp [over, hx]
      · rfl
    · intro x hx
      rw [List.mem_cons, not_or]
      exact ⟨fun he => huL (he ▸ hx), hD x (by simp [hx])⟩

theorem RunA.list (hF : Forest s id par) {u : Nat} (hu : u ≠ 0) : ∀ (K : List Nat), K.Nodup →
    (∀ c ∈ K, IsPrimary s c ∧ par c = u ∧ ∃ L, RunA s rot par [c] L) → ∃ L, RunA s rot par K L := by
  intro K
  induction K with
  | nil => intro _ _; exact ⟨[], RunA.nil⟩
  | cons c K ih =>
    intro hnd hK
    rw [List.nodup_cons] at hnd
    obtain ⟨L2, h2⟩ := ih hnd.2 fun c' hc' => hK c' (by simp [hc'])
    obtain ⟨hc, hpc, L1, h1⟩ := hK c (by simp)
    refine ⟨L1 ++ L2, RunA.cons h1 h2 ?_⟩
    intro x hx1 hx2
    obtain ⟨_, a, ha, hax⟩ := (h1.mem x).1 hx1
    rw [List.mem_singleton] at ha; subst ha
    obtain ⟨_, b, hb, hbx⟩ := (h2.mem x).1 hx2
    obtain ⟨hb1, hb2, _⟩ := hK b (by simp [hb])
    exact kids_disjoint hF hc hb1 hu hpc hb2 (fun he => hnd.1 (he ▸ hb)) hax hbx

theorem RunA.tree (h : PInv s rot) (hF : Forest s id par) {u : Nat} (hu : IsPrimary s u) : ∃ L, RunA s rot par [u] L := by
  induction hk : s.g.N - u using Nat.strong_induction_on generalizing u with
  | _ k ih =>
    have hu0 : u ≠ 0 := by have := hu.1; omega
    obtain ⟨L, hL⟩ := RunA.list (rot := rot) hF hu0 (kidsOf s (rot u)).reverse
      (List.nodup_reverse.2 (nodup_kids h hF hu)) (by
        intro c hc
        rw [List.mem_reverse] at hc
        obtain ⟨h1, h2⟩ := (mem_kids h hF hu).1 hc
        refine ⟨h1, h2, ih _ ?_ h1 rfl⟩
        have := (hF.up c h1 (by rw [h2]; exact hu0)).2.1
        rw [h2] at this
        simp only [id] at this
        have := h1.2
        omega)
    exact ⟨_, RunA.node h hF hu hL⟩

theorem leastLoop_nil {k v : Nat} : leastLoop k v (st s D la low []) = some (st s D la low [], v) := by
  cases k with
  | zero => rfl
  | succ k => rfl

theorem leastOuter_st (h : PInv s rot) (hF : Forest s id par) : ∀ (fuel v : Nat) (la low : Nat → Nat), 1 ≤ v → v ≤ s.g.N + 1 →
    s.g.N + 1 ≤ fuel + v →
    leastOuter fuel v (st s (List.range' 1 (v - 1)) (upTo v (LAf s rot) la) low []) =
      some (st s (List.range' 1 s.g.N) (upTo (s.g.N + 1) (LAf s rot) la) low []) := by
  intro fuel
  induction fuel with
  | zero =>
    intro v la low h1 h2 h3
    have hv : v = s.g.N + 1 := by omega
    subst hv
    have : ¬ s.g.N + 1 ≤ (st s (List.range' 1 (s.g.N + 1 - 1)) (upTo (s.g.N + 1) (LAf s rot) la) low []).g.N := by
      show ¬ s.g.N + 1 ≤ s.g.N; omega
    simp only [leastOuter, this, if_false]
    rfl
  | succ fuel ih =>
    intro v la low h1 h2 h3
    by_cases hv : v ≤ s.g.N
    · have hvp : IsPrimary s v := ⟨h1, hv⟩
      obtain ⟨L, hL⟩ := RunA.tree h hF hvp
      have hLm : ∀ x, x ∈ L ↔ v ≤ x ∧ x < v + L.length := by
        apply interval_mem hL.nodup
        · rw [hL.mem]; exact ⟨hvp, v, by simp, .refl _⟩
        · intro x hx
          obtain ⟨hx, c, hc, ha⟩ := (hL.mem x).1 hx
          rw [List.mem_singleton] at hc; subst hc
          exact ancEq_num hF ha hx
        · intro x hx w hw1 hw2
          obtain ⟨hx, c, hc, ha⟩ := (hL.mem x).1 hx
          rw [List.mem_singleton] at hc; subst hc
          have hwp : IsPrimary s w := ⟨by omega, by have := hx.2; omega⟩
          exact (hL.mem w).2 ⟨hwp, c, by simp, hF.consecutive c w x hvp hwp hx ha hw1 hw2⟩
      have hL1 : 1 ≤ L.length := hL.le
      have hLN : v + L.length ≤ s.g.N + 1 := by
        have := ((hL.mem _).1 ((hLm (v + L.length - 1)).2 ⟨by omega, by omega⟩)).1.2
        omega
      have hcond : v ≤ (st s (List.range' 1 (v - 1)) (upTo v (LAf s rot) la) low []).g.N := hv
      simp only [leastOuter, hcond, if_true]
      rw [visited_st h1 hv]
      have hnm : v ∉ List.range' 1 (v - 1) := by rw [List.mem_range'_1]; omega
      simp only [hnm, decide_false, Option.bind_eq_bind, Option.bind_some, Bool.false_eq_true, if_false]
      rw [push_st v (by have := h.cap'; simp only [List.length_nil]; omega), Option.bind_some]
      have e1 : (st s (List.range' 1 (v - 1)) (upTo v (LAf s rot) la) low []).setG
          (st s (List.range' 1 (v - 1)) (upTo v (LAf s rot) la) low [v]).g =
          st s (List.range' 1 (v - 1)) (upTo v (LAf s rot) la) low ([v] ++ []) := rfl
      rw [e1]
      have e2 : 2 * (st s (List.range' 1 (v - 1)) (upTo v (LAf s rot) la) low [v]).g.N + 1 =
          (2 * s.g.N + 1 - L.length) + L.length := by show 2 * s.g.N + 1 = _; omega
      rw [e2, hL.run _ _ _ _ _ _ ?_ ?_, leastLoop_nil, Option.bind_some]
      · have := ih (v + L.length) la low (by omega) hLN (by omega)
        rw [← this]
        congr 1
        apply st_congr
        · intro x
          rw [List.mem_append, hLm, List.mem_range'_1, List.mem_range'_1]; omega
        · funext x
          simp only [over, upTo, hLm]
          split
          · rw [if_pos (by omega)]
          · split
            · rw [if_pos (by omega)]
            · rw [if_neg (by omega)]
        · rfl
      · intro x hx
        rw [hLm] at hx
        rw [List.mem_range'_1]; omega
      · have := h.cap'; simp only [List.length_nil]; omega
    · have hv' : v = s.g.N + 1 := by omega
      subst hv'
      have : ¬ s.g.N + 1 ≤ (st s (List.range' 1 (s.g.N + 1 - 1)) (upTo (s.g.N + 1) (LAf s rot) la) low []).g.N := by
        show ¬ s.g.N + 1 ≤ s.g.N; omega
      simp only [leastOuter, this, if_false]
      rfl

/-- gp_LeastAncestor on a sorted forest without visited marks. -/
theorem least_unmarked (h : PInv s rot) (hF : Forest s id par) (hn : s.g.dfsNumbered = true) (hs : s.g.sortedByDfi = true)
    (hm : ∀ u, IsPrimary s u → (s.g.V u).flags % 2 = 0) :
    ∃ D la low, s.leastAncestor = some (st s D la low [], .ok) ∧
      ∀ u, IsPrimary s u → IsLeastAncestor s u (la u) := by
  have hlo := leastOuter_st h hF (s.g.N + 1) 1 (fun v => (s.VI v).leastAncestor) (fun v => (s.VI v).lowpoint)
    (Nat.le_refl _) (by omega) (by omega)
  have hup1 : ∀ f g : Nat → Nat, upTo 1 f g = g := by
    intro f g; funext x; unfold upTo; rw [if_neg (by omega)]
  rw [hup1] at hlo
  refine ⟨List.range' 1 s.g.N, upTo (s.g.N + 1) (LAf s rot) (fun v => (s.VI v).leastAncestor),
    fun v => (s.VI v).lowpoint, ?_, ?_⟩
  · have hes : s.ensureSorted = some (s, .ok) := by
      simp [ensureSorted, createDFSTree, hn, hs]
    have hcap := h.cap'
    simp only [leastAncestor, hes, Option.bind_eq_bind, Option.bind_some, ne_eq, not_true_eq_false, if_false,
      show ¬ s.g.stackCap < s.g.N by omega]
    simp only [Nat.sub_self, List.range'_zero] at hlo
    have hst : s.setG s.g.clearStack = st s [] (fun v => (s.VI v).leastAncestor) (fun v => (s.VI v).lowpoint) [] := by
      unfold st setG clearStack
      congr 1
      congr 1
      funext v
      unfold vflags
      split
      · next hv =>
        have := hm v hv
        rw [show (s.g.V v).flags / 2 * 2 = (s.g.V v).flags by omega]
        simp
      · rfl
    rw [hst, hlo]
    rfl
  · intro u hu
    unfold upTo
    rw [if_pos ⟨hu.1, by have := hu.2; omega⟩]
    exact LAf_spec h

/-- gp_LeastAncestor on a graph whose primary vertices are all marked visited does nothing. -/
theorem leastOuter_marked (hm : ∀ u, IsPrimary s u → (s.g.V u).flags % 2 = 1) : ∀ (fuel v : Nat), 1 ≤ v →
    s.g.N + 1 ≤ fuel + v → leastOuter fuel v s = some s := by
  intro fuel
  induction fuel with
  | zero => intro v h1 h2; simp only [leastOuter]; rw [if_neg (by omega)]
  | succ fuel ih =>
    intro v h1 h2
    simp only [leastOuter]
    split
    · next hv =>
      have hvs : v < s.g.vSize := by unfold vSize; omega
      have : s.g.visited v = some true := by
        simp only [visited, rdV, hvs, if_true, Option.bind_eq_bind, Option.bind_some, hm v ⟨h1, hv⟩, decide_true, Option.pure_def]
      rw [this]
      exact ih (v + 1) (by omega) (by omega)
    · rfl

end Verif.DFS
