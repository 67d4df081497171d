import Verif.Draw.Order

/-
The rows computed for the vertices.
-/
namespace Verif
namespace Draw
open Graph Props LC DFS PGraph

/-- The state with another stack. -/
def ws (s : PGraph) (stk : List Nat) : PGraph := s.setG { s.g with stack := stk }

variable {s : PGraph} {rot : Nat → List Nat} {par : Nat → Nat}

theorem pushChildren_ws : ∀ (es : List Nat) (fuel e : Nat) (stk : List Nat),
    s.g.walkFrom false fuel e = some es → (∀ x ∈ es, x < s.g.eSize) →
    stk.length + (kidsOf s es).length ≤ s.g.stackCap →
    pushChildren fuel e (ws s stk).g = some (ws s ((kidsOf s es).reverse ++ stk)).g := by
  intro es
  induction es with
  | nil =>
    intro fuel e stk hw _ _
    rcases walkFrom_cons hw with ⟨rfl, _⟩ | ⟨_, _, _, _, _, h, _⟩
    · cases fuel <;> simp [pushChildren, kidsOf]
    · cases h
  | cons e es ih =>
    intro fuel e' stk hw hx hc
    rcases walkFrom_cons hw with ⟨_, h⟩ | ⟨he, fuel', n, es', rfl, h, ha, hr⟩
    · cases h
    · cases h
      have hlt := hx e (by simp)
      have hty : (ws s stk).g.getType e = some (tyOf s e) := by
        have : e < (ws s stk).g.eSize := hlt
        simp only [getType, rdE, this, if_true]; rfl
      have hnb : (ws s stk).g.getNbr e = some (hdOf s e) := by
        have : e < (ws s stk).g.eSize := hlt
        simp only [getNbr, rdE, this, if_true]; rfl
      simp only [pushChildren, he, if_false, hty, Option.bind_eq_bind, Option.bind_some, pushChild]
      by_cases ht : tyOf s e = 14
      · have hk : kidsOf s (e :: es) = hdOf s e :: kidsOf s es := by simp [kidsOf, ht]
        rw [hk, List.length_cons] at hc
        simp only [ht, if_true, hnb, Option.bind_some]
        have hp : (ws s stk).g.push (hdOf s e) = some (ws s (hdOf s e :: stk)).g :=
          if_pos (show stk.length < s.g.stackCap by omega)
        rw [hp, Option.bind_some]
        have ha' : (ws s (hdOf s e :: stk)).g.getAdj e false = some n := ha
        rw [ha', Option.bind_some, ih fuel' n _ hr (fun y hy => hx y (by simp [hy])) (by simp only [List.length_cons]; omega), hk]
        simp
      · have hk : kidsOf s (e :: es) = kidsOf s es := by simp [kidsOf, ht]
        rw [hk] at hc ⊢
        have ha' : (ws s stk).g.getAdj e false = some n := ha
        simp only [ht, if_false, Option.bind_some, ha']
        exact ih fuel' n _ hr (fun y hy => hx y (by simp [hy])) hc

/-- The state of the loop: `L` is the order so far, `stk` the stack. -/
structure OInv (s : PGraph) (par : Nat → Nat) (r : Nat) (c0 c : Ctx) (o : Coll) (L stk : List Nat) : Prop where
  size : o.N = 1 + s.g.N
  ring : Ring o L
  nodup : L.Nodup
  sub : ∀ x ∈ L, IsPrimary s x ∧ AncEq par r x
  head : (L = [] ∧ stk = [r]) ∨ L.head? = some r
  snodup : stk.Nodup
  ssub : ∀ x ∈ stk, IsPrimary s x ∧ AncEq par r x ∧ x ∉ L ∧ (x = r ∨ (par x ≠ 0 ∧ par x ∈ L))
  up : ∀ x ∈ L, x ≠ r → par x ≠ 0 ∧ par x ∈ L
  closed : ∀ x, IsPrimary s x → par x ∈ L → x ∈ L ∨ x ∈ stk
  edges : c.E = c0.E
  rest : ∀ v, v ∉ L → c.VI v = c0.VI v
  data : ∀ v, c.VI v = { c0.VI v with flag := (c.VI v).flag }
  noTie : ∀ x ∈ L, x ≠ r → (c0.VI x).flag ≠ 1
  first : ∀ x ∈ L, x ≠ r → (c0.VI x).ancestorChild = 0 → (c.VI x).flag = newFlag true (c0.VI x).flag
  next : ∀ x ∈ L, x ≠ r → AncEq par (c0.VI x).ancestorChild (par x) →
    (c.VI x).flag = newFlag (decide ((c.VI (c0.VI x).ancestorChild).flag = 3)) (c0.VI x).flag
  root : r ∈ L → (c.VI r).flag = 3
  flag : ∀ x ∈ L, x ≠ r → (c.VI x).flag = 3 ∨ (c.VI x).flag = 4
  below : ∀ x ∈ L, x ≠ r → (c.VI x).flag = 3 → L.idxOf (par x) < L.idxOf x
  above : ∀ x ∈ L, x ≠ r → (c.VI x).flag = 4 → par x ≠ r → L.idxOf x < L.idxOf (par x)
  block : ∀ x ∈ L, x ≠ r → ∀ y ∈ L, AncEq par x y → (L.idxOf (par x) < L.idxOf y ↔ L.idxOf (par x) < L.idxOf x)

theorem newFlag_cases (b : Bool) (f : Nat) : newFlag b f = 3 ∨ newFlag b f = 4 := by
  unfold newFlag
  split <;> split <;> simp

theorem nodup_le {l : List Nat} (h : l.Nodup) {n : Nat} (hm : ∀ x ∈ l, 1 ≤ x ∧ x ≤ n) : l.length ≤ n := by
  have h1 : l.toFinset ⊆ Finset.Icc 1 n := fun x hx => Finset.mem_Icc.2 (hm x (List.mem_toFinset.1 hx))
  have := Finset.card_le_card h1
  rw [List.toFinset_card_of_nodup h, Nat.card_Icc] at this
  omega

theorem primary_zero {u : Nat} (h : IsPrimary s u) : u ≠ 0 := by have := h.1; omega

/-- No vertex is its own ancestor. -/
theorem not_anc_child (hF : Forest s id par) {w : Nat} (hw : IsPrimary s w) (hp : par w ≠ 0) : ¬ AncEq par w (par w) := by
  intro h
  have h1 := ancEq_num hF h (hF.up w hw hp).1
  have h2 := (hF.up w hw hp).2.1
  simp only [id] at h1 h2
  omega

/-- In a list closed under parents, an ancestor of a member is a member. -/
theorem OInv.anc {r c0 c o L stk} (h : OInv s par r c0 c o L stk) {a b : Nat} (hab : AncEq par a b)
    (hr : par r = 0) (hb : b ∈ L) : a ∈ L := by
  induction hab with
  | refl => exact hb
  | @up b h1 _ ih =>
    by_cases hbr : b = r
    · exact absurd (hbr ▸ hr) h1
    · exact ih (h.up b hb hbr).2

/-- The state after placing `w`, before its children are pushed: facts on the order. -/
theorem OInv.insert {r c0 c o L stk w k L' o'} (h : OInv s par r c0 c o L (w :: stk)) (hp : PInv s rot) (hF : Forest s id par)
    (hr : par r = 0) (hwr : w ≠ r) (htie : (c0.VI w).flag ≠ 1) {f : Nat}
    (hf0 : (c0.VI w).ancestorChild = 0 → f = newFlag true (c0.VI w).flag)
    (hf1 : AncEq par (c0.VI w).ancestorChild (par w) →
      f = newFlag (decide ((c.VI (c0.VI w).ancestorChild).flag = 3)) (c0.VI w).flag)
    (hf : f = 3 ∨ f = 4)
    (hins : Ins L L' w k) (hk : k = if f = 3 then L.idxOf (par w) + 1 else if L.head? = some (par w) then L.length else L.idxOf (par w))
    (hring : Ring o' L') (hN : o'.N = o.N) (hhead : L'.head? = L.head?) :
    OInv s par r c0 { c with VI := Function.update c.VI w { c.VI w with flag := f } } o' L' ((kidsOf s (rot w)).reverse ++ stk) := by
  obtain ⟨hwp, hwa, hwL, hwpar⟩ := h.ssub w (by simp)
  obtain ⟨hp0, hpL⟩ : par w ≠ 0 ∧ par w ∈ L := hwpar.resolve_left hwr
  have hsn := List.nodup_cons.1 h.snodup
  have hLr : L.head? = some r := by
    rcases h.head with ⟨rfl, hs⟩ | hh
    · simp at hpL
    · exact hh
  have hrL : r ∈ L := List.mem_of_mem_head? (by rw [hLr]; rfl)
  have hkid : ∀ x, x ∈ kidsOf s (rot w) ↔ IsPrimary s x ∧ par x = w := fun x => mem_kids hp hF hwp
  have hw0 : w ≠ 0 := primary_zero hwp
  have hdata : ∀ v, (Function.update c.VI w { c.VI w with flag := f } v) = if v = w then { c.VI w with flag := f } else c.VI v := by
    intro v
    by_cases hv : v = w
    · subst hv; simp
    · simp [hv]
  have hneL : ∀ x ∈ L, x ≠ w := fun x hx hq => hwL (hq ▸ hx)
  have hidx : ∀ x ∈ L, L.idxOf x < L.length := fun x hx => List.idxOf_lt_length_of_mem hx
  have hinj : ∀ x ∈ L, ∀ y ∈ L, L.idxOf x = L.idxOf y → x = y := fun x hx y hy hq => (List.idxOf_inj hx).1 hq
  have hold := hins.old
  have hat := hins.at_
  -- relative order of old members
  have hlt : ∀ x ∈ L, ∀ y ∈ L, (L'.idxOf x < L'.idxOf y ↔ L.idxOf x < L.idxOf y) := by
    intro x hx y hy
    rw [hold x hx, hold y hy]
    split <;> split <;> omega
  have hhr : L.head? = some (par w) ↔ par w = r := by
    rw [hLr]
    constructor
    · intro hq; exact (Option.some.inj hq).symm
    · intro hq; rw [hq]
  -- order of w and an old member other than its parent
  have hnear : ∀ y ∈ L, y ≠ par w → par w ≠ r → (L'.idxOf y < L'.idxOf w ↔ L.idxOf y < L.idxOf (par w)) := by
    intro y hy hne hpr
    have hne' : L.idxOf y ≠ L.idxOf (par w) := fun hq => hne (hinj y hy _ hpL hq)
    rw [if_neg (fun hq => hpr (hhr.1 hq))] at hk
    rw [hat, hold y hy]
    rcases hf with rfl | rfl
    · rw [if_pos rfl] at hk
      split <;> omega
    · rw [if_neg (by decide)] at hk
      split <;> omega
  have hroot : L.idxOf r = 0 := by
    cases L with
    | nil => simp at hrL
    | cons a t =>
      simp at hLr
      subst hLr
      simp
  refine ⟨hN.trans h.size, hring, hins.nodup, ?_, ?_, ?_, ?_, ?_, ?_, h.edges, ?_, ?_, ?_, ?_, ?_, ?_, ?_, ?_, ?_, ?_⟩
  · intro x hx
    rcases (hins.mem x).1 hx with hx | rfl
    · exact h.sub x hx
    · exact ⟨hwp, hwa⟩
  · right
    rw [hhead]
    exact hLr
  · rw [List.nodup_append]
    refine ⟨List.nodup_reverse.2 (nodup_kids hp hF hwp), hsn.2, ?_⟩
    intro a ha b hb hab
    subst hab
    obtain ⟨-, h2⟩ := (hkid a).1 (List.mem_reverse.1 ha)
    obtain ⟨a1, -, a2, a3⟩ := h.ssub a (by simp [hb])
    rcases a3 with rfl | a3
    · exact hw0 (h2 ▸ hr)
    · exact hwL (h2 ▸ a3.2)
  · intro x hx
    rcases List.mem_append.1 hx with hx | hx
    · obtain ⟨h1, h2⟩ := (hkid x).1 (List.mem_reverse.1 hx)
      refine ⟨h1, .up (by rw [h2]; exact hw0) (by rw [h2]; exact hwa), fun hm => ?_, .inr ⟨by rw [h2]; exact hw0, ?_⟩⟩
      · rcases (hins.mem x).1 hm with hm | rfl
        · by_cases hxr : x = r
          · exact hw0 (by rw [← h2, hxr, hr])
          · exact hwL (h2 ▸ (h.up x hm hxr).2)
        · exact not_anc_child hF h1 hp0 (by rw [h2]; exact .refl _)
      · rw [h2]
        exact (hins.mem w).2 (.inr rfl)
    · obtain ⟨a1, a0, a2, a3⟩ := h.ssub x (by simp [hx])
      refine ⟨a1, a0, fun hm => ?_, a3.imp_right fun ⟨b1, b2⟩ => ⟨b1, (hins.mem _).2 (.inl b2)⟩⟩
      rcases (hins.mem x).1 hm with hm | hm
      · exact a2 hm
      · exact hsn.1 (hm ▸ hx)
  · intro x hx hxr
    rcases (hins.mem x).1 hx with hx | rfl
    · exact ⟨(h.up x hx hxr).1, (hins.mem _).2 (.inl (h.up x hx hxr).2)⟩
    · exact ⟨hp0, (hins.mem _).2 (.inl hpL)⟩
  · intro x hx hm
    rcases (hins.mem _).1 hm with hm | hm
    · rcases h.closed x hx hm with h1 | h1
      · exact .inl ((hins.mem x).2 (.inl h1))
      · rcases List.mem_cons.1 h1 with rfl | h1
        · exact .inl ((hins.mem x).2 (.inr rfl))
        · exact .inr (List.mem_append_right _ h1)
    · exact .inr (List.mem_append_left _ (List.mem_reverse.2 ((hkid x).2 ⟨hx, hm⟩)))
  · intro v hv
    have : v ≠ w := fun hq => hv ((hins.mem v).2 (.inr hq))
    show Function.update c.VI w _ v = _
    rw [hdata, if_neg this]
    exact h.rest v (fun hm => hv ((hins.mem v).2 (.inl hm)))
  · intro v
    dsimp only
    simp only [hdata]
    by_cases hv : v = w
    · subst hv
      simp only [if_true]
      rw [h.rest v hwL]
    · simp only [if_neg hv]
      exact h.data v
  · intro x hx hxr
    rcases (hins.mem x).1 hx with hx | rfl
    · exact h.noTie x hx hxr
    · exact htie
  · intro x hx hxr hq
    show (Function.update c.VI w _ x).flag = _
    rw [hdata]
    rcases (hins.mem x).1 hx with hx | rfl
    · rw [if_neg (hneL x hx)]
      exact h.first x hx hxr hq
    · rw [if_pos rfl]
      exact hf0 hq
  · intro x hx hxr hq
    show (Function.update c.VI w _ x).flag = newFlag (decide ((Function.update c.VI w _ _).flag = 3)) _
    rw [hdata, hdata]
    rcases (hins.mem x).1 hx with hx | rfl
    · have : (c0.VI x).ancestorChild ∈ L := h.anc hq hr (h.up x hx hxr).2
      rw [if_neg (hneL x hx), if_neg (hneL _ this)]
      exact h.next x hx hxr hq
    · have : (c0.VI x).ancestorChild ∈ L := h.anc hq hr hpL
      rw [if_pos rfl, if_neg (hneL _ this)]
      exact hf1 hq
  · intro _
    show (Function.update c.VI w _ r).flag = 3
    rw [hdata, if_neg (hneL r hrL)]
    exact h.root hrL
  · intro x hx hxr
    show (Function.update c.VI w _ x).flag = 3 ∨ (Function.update c.VI w _ x).flag = 4
    rw [hdata]
    rcases (hins.mem x).1 hx with hx | rfl
    · rw [if_neg (hneL x hx)]
      exact h.flag x hx hxr
    · rw [if_pos rfl]
      exact hf
  · intro x hx hxr hq
    have hq' : (Function.update c.VI w { c.VI w with flag := f } x).flag = 3 := hq
    rw [hdata] at hq'
    rcases (hins.mem x).1 hx with hx | rfl
    · rw [if_neg (hneL x hx)] at hq'
      rw [hlt _ (h.up x hx hxr).2 _ hx]
      exact h.below x hx hxr hq'
    · rw [if_pos rfl] at hq'
      have hq'' : f = 3 := hq'
      rw [hat, hold _ hpL, hk, if_pos hq'']
      split <;> omega
  · intro x hx hxr hq hpr
    have hq' : (Function.update c.VI w { c.VI w with flag := f } x).flag = 4 := hq
    rw [hdata] at hq'
    rcases (hins.mem x).1 hx with hx | rfl
    · rw [if_neg (hneL x hx)] at hq'
      rw [hlt _ hx _ (h.up x hx hxr).2]
      exact h.above x hx hxr hq' hpr
    · rw [if_pos rfl] at hq'
      have hq'' : f = 4 := hq'
      rw [hat, hold _ hpL, hk, if_neg (by omega), if_neg (fun hq => hpr (hhr.1 hq))]
      split <;> omega
  · intro x hx hxr y hy hxy
    rcases (hins.mem x).1 hx with hx | rfl
    · have hpx := (h.up x hx hxr).2
      rcases (hins.mem y).1 hy with hy | rfl
      · rw [hlt _ hpx _ hy, hlt _ hpx _ hx]
        exact h.block x hx hxr y hy hxy
      · -- y = w: like its parent
        have hxp : AncEq par x (par y) := by
          rcases hxy.cases with rfl | hxy
          · exact absurd hx hwL
          · exact hxy.2
        have hb := h.block x hx hxr _ hpL hxp
        have hpne : par y ≠ r := by
          intro hq
          rw [hq] at hxp
          rcases hxp.cases with hq' | hq'
          · exact hxr hq'
          · exact hq'.1 hr
        have hpp : par x ≠ par y := by
          intro hq
          rw [← hq] at hxp
          exact not_anc_child hF (h.sub x hx).1 (h.up x hx hxr).1 hxp
        rw [hnear _ hpx hpp hpne, hlt _ hpx _ hx]
        exact hb
    · -- x = w: only w itself
      rcases (hins.mem y).1 hy with hy | rfl
      · exact absurd (h.anc hxy hr hy) hwL
      · exact Iff.rfl

theorem OInv.start {r : Nat} (hr : IsPrimary s r) (c0 : Ctx) : OInv s par r c0 c0 (LC.new (1 + s.g.N)) [] [r] := by
  refine ⟨rfl, trivial, List.nodup_nil, by simp, .inl ⟨rfl, rfl⟩, by simp, ?_, by simp, by simp, rfl, fun _ _ => rfl,
    fun _ => rfl, by simp, by simp, by simp, by simp, by simp, by simp, by simp, by simp⟩
  intro x hx
  rw [List.mem_singleton] at hx
  subst hx
  exact ⟨hr, .refl _, by simp, .inl rfl⟩

/-- The root is placed. -/
theorem OInv.placeRoot {r c0 c o stk} (h : OInv s par r c0 c o [] stk) (hp : PInv s rot) (hF : Forest s id par)
    (hr : IsPrimary s r) (hr0 : par r = 0) :
    ∃ o', place s c o r = some (some ({ c with VI := Function.update c.VI r { c.VI r with flag := 3 } }, o')) ∧
      OInv s par r c0 { c with VI := Function.update c.VI r { c.VI r with flag := 3 } } o' [r] ((kidsOf s (rot r)).reverse ++ []) := by
  have hrN : r < o.N := by rw [h.size]; have := hr.2; omega
  have hr' : r ≠ 0 := primary_zero hr
  have hkid : ∀ x, x ∈ kidsOf s (rot r) ↔ IsPrimary s x ∧ par x = r := fun x => mem_kids hp hF hr
  refine ⟨{ { o with next := fun j => if j = r then r else o.next j } with prev := fun j => if j = r then r else o.prev j }, ?_, ?_⟩
  · unfold place
    rw [hF.parent r hr]
    simp only [Option.bind_eq_bind, Option.bind_some]
    have hlt : r < 1 + s.g.N := by have := hr.2; omega
    have hd : rdDV c s.g r = some (c.VI r) := if_pos hlt
    rw [hd]
    simp only [Option.bind_some]
    rw [if_pos hr0]
    unfold append single
    rw [if_pos rfl]
    simp only [Option.bind_eq_bind, Option.pure_def]
    rw [wrNext_eq hrN, Option.bind_some, wrPrev_eq (by exact hrN), Option.bind_some]
    simp only [Option.bind_some]
    have hw : wrDV c s.g r { c.VI r with flag := 3 } = some { c with VI := Function.update c.VI r { c.VI r with flag := 3 } } :=
      if_pos hlt
    rw [hw]
    rfl
  · have hr1 : ∀ x ∈ [r], x = r := fun x hx => List.mem_singleton.1 hx
    refine ⟨h.size, ?_, by simp, ?_, .inr rfl, ?_, ?_, ?_, ?_, h.edges, ?_, ?_, ?_, ?_, ?_, ?_, ?_, ?_, ?_, ?_⟩
    · rw [ring_iff]
      simp [R]
    · intro x hx
      rw [hr1 x hx]
      exact ⟨hr, .refl _⟩
    · rw [List.append_nil]
      exact List.nodup_reverse.2 (nodup_kids hp hF hr)
    · intro x hx
      rw [List.append_nil, List.mem_reverse, hkid] at hx
      refine ⟨hx.1, .up (by rw [hx.2]; exact hr') (by rw [hx.2]; exact .refl _), fun hm => ?_, .inr ⟨by rw [hx.2]; exact hr', by simp [hx.2]⟩⟩
      have := hr1 x hm
      subst this
      exact hr' (hx.2.symm.trans hr0)
    · intro x hx hxr
      exact absurd (hr1 x hx) hxr
    · intro x hx hm
      right
      rw [List.append_nil, List.mem_reverse, hkid]
      exact ⟨hx, hr1 _ hm⟩
    · intro v hv
      have : v ≠ r := fun hq => hv (by simp [hq])
      show Function.update c.VI r _ v = _
      rw [Function.update_of_ne this]
      exact h.rest v (by simp)
    · intro v
      dsimp only
      by_cases hv : v = r
      · subst hv
        simp only [Function.update_self]
        rw [h.rest v (by simp)]
      · simp only [Function.update_of_ne hv]
        exact h.data v
    all_goals first
      | (intro x hx hxr; exact absurd (hr1 x hx) hxr)
      | (intro _; simp)

theorem orderLoop_spec (hp : PInv s rot) (hF : Forest s id par) {r : Nat} (hr : IsPrimary s r) (hr0 : par r = 0) {c0 : Ctx}
    (hC : ∀ v, IsPrimary s v → (c0.VI v).ancestorChild ≤ s.g.N) :
    ∀ (fuel : Nat) (c : Ctx) (o : Coll) (L stk : List Nat), OInv s par r c0 c o L stk → s.g.N ≤ fuel + L.length →
    ∃ stk' res, orderLoop fuel (ws s stk) c o = some (ws s stk', res) ∧
      ((res = none ∧ ∃ x, IsPrimary s x ∧ AncEq par r x ∧ x ≠ r ∧ (c0.VI x).flag = 1) ∨
        ∃ c' o' L', res = some (c', o') ∧ OInv s par r c0 c' o' L' []) := by
  intro fuel
  induction fuel with
  | zero =>
    intro c o L stk h hf
    cases stk with
    | nil => exact ⟨[], _, rfl, .inr ⟨c, o, L, rfl, h⟩⟩
    | cons w stk =>
      exfalso
      obtain ⟨h1, -, h2, -⟩ := h.ssub w (by simp)
      have := nodup_le (l := w :: L) (n := s.g.N) (List.nodup_cons.2 ⟨h2, h.nodup⟩) (by
        intro x hx
        rcases List.mem_cons.1 hx with rfl | hx
        · exact h1
        · exact (h.sub x hx).1)
      rw [List.length_cons] at this
      omega
  | succ fuel ih =>
    intro c o L stk h hf
    cases stk with
    | nil => exact ⟨[], _, rfl, .inr ⟨c, o, L, rfl, h⟩⟩
    | cons w stk =>
      obtain ⟨hwp, hwa, hwL, hwpar⟩ := h.ssub w (by simp)
      have hwlt : w < 1 + s.g.N := by have := hwp.2; omega
      -- what happens after `w` has been placed
      have key : ∀ c' o' L', place s c o w = some (some (c', o')) → L'.length = L.length + 1 →
          OInv s par r c0 c' o' L' ((kidsOf s (rot w)).reverse ++ stk) →
          ∃ stk' res, orderLoop (fuel + 1) (ws s (w :: stk)) c o = some (ws s stk', res) ∧
            ((res = none ∧ ∃ x, IsPrimary s x ∧ AncEq par r x ∧ x ≠ r ∧ (c0.VI x).flag = 1) ∨
              ∃ c' o' L', res = some (c', o') ∧ OInv s par r c0 c' o' L' []) := by
        intro c' o' L' hpl hlen hO
        obtain ⟨stk', res, h1, h2⟩ := ih c' o' L' _ hO (by omega)
        refine ⟨stk', res, ?_, h2⟩
        unfold orderLoop
        have e0 : (ws s (w :: stk)).g.stack = w :: stk := rfl
        rw [e0]
        dsimp only
        have e1 : (ws s (w :: stk)).setG { (ws s (w :: stk)).g with stack := stk } = ws s stk := rfl
        rw [e1]
        have e2 : place (ws s stk) c o w = place s c o w := rfl
        rw [e2, hpl]
        simp only [Option.bind_eq_bind, Option.bind_some]
        have hvs : w < s.g.vSize := by unfold vSize; have := hwp.2; omega
        have hwk := walk_eq hp.inv.links hvs false
        unfold walk at hwk
        cases hfa : s.g.getArc w false with
        | none => simp [hfa] at hwk
        | some f =>
          have hfa' : (ws s stk).g.getArc w false = some f := hfa
          rw [hfa', Option.bind_some]
          have hwk' : s.g.walkFrom false s.g.eSize f = some (rot w) := by simpa [hfa, dir] using hwk
          have hlen2 := nodup_le (n := s.g.N) hO.snodup (fun x hx => (hO.ssub x hx).1)
          have hpc := pushChildren_ws (s := s) (rot w) s.g.eSize f stk hwk' (fun x hx => (hp.inv.links.arc w x hx).2) (by
            rw [List.length_append, List.length_reverse] at hlen2
            have := hp.cap'
            omega)
          have e3 : (ws s stk).g.eSize = s.g.eSize := rfl
          rw [e3, hpc, Option.bind_some]
          exact h1
      by_cases hwr : w = r
      · subst hwr
        have hL : L = [] ∧ w :: stk = [w] := by
          rcases h.head with hh | hh
          · exact hh
          · exact absurd (List.mem_of_mem_head? (by rw [hh]; rfl)) hwL
        obtain ⟨rfl, hs⟩ := hL
        have hs' : stk = [] := by simpa using hs
        subst hs'
        obtain ⟨o', h1, h2⟩ := h.placeRoot hp hF hr hr0
        exact key _ o' [w] h1 rfl h2
      · obtain ⟨hp0, hpL⟩ : par w ≠ 0 ∧ par w ∈ L := hwpar.resolve_left hwr
        have hdw : c.VI w = c0.VI w := h.rest w hwL
        have hrd : rdDV c s.g w = some (c.VI w) := if_pos hwlt
        by_cases htie : (c0.VI w).flag = 1
        · refine ⟨stk, none, ?_, .inl ⟨rfl, w, hwp, hwa, hwr, htie⟩⟩
          unfold orderLoop
          have e0 : (ws s (w :: stk)).g.stack = w :: stk := rfl
          rw [e0]
          dsimp only
          have e1 : (ws s (w :: stk)).setG { (ws s (w :: stk)).g with stack := stk } = ws s stk := rfl
          rw [e1]
          have e2 : place (ws s stk) c o w = place s c o w := rfl
          have hpl : place s c o w = some none := by
            unfold place
            rw [hF.parent w hwp]
            simp only [Option.bind_eq_bind, Option.bind_some, hrd]
            rw [if_neg hp0, hdw, if_pos htie]
            rfl
          rw [e2, hpl]
          rfl
        · -- placed next to its parent
          have hb : ∀ y ∈ L, y < o.N := fun y hy => by rw [h.size]; have := (h.sub y hy).1.2; omega
          have hwb : w < o.N := by rw [h.size]; exact hwlt
          obtain ⟨b, hb1, hb2⟩ : ∃ b, childBelow c s.g (c0.VI w).ancestorChild = some b ∧
              (((c0.VI w).ancestorChild = 0 ∧ b = true) ∨
                ((c0.VI w).ancestorChild ≠ 0 ∧ b = decide ((c.VI (c0.VI w).ancestorChild).flag = 3))) := by
            unfold childBelow
            by_cases h0 : (c0.VI w).ancestorChild = 0
            · exact ⟨true, if_pos h0, .inl ⟨h0, rfl⟩⟩
            · have : (c0.VI w).ancestorChild < 1 + s.g.N := by have := hC w hwp; omega
              refine ⟨_, ?_, .inr ⟨h0, rfl⟩⟩
              rw [if_neg h0]
              unfold rdDV
              rw [if_pos this]
              rfl
          have hf := newFlag_cases b (c0.VI w).flag
          have hf0 : (c0.VI w).ancestorChild = 0 → newFlag b (c0.VI w).flag = newFlag true (c0.VI w).flag := by
            intro h0
            rcases hb2 with ⟨-, rfl⟩ | ⟨h1, -⟩
            · rfl
            · exact absurd h0 h1
          have hf1 : AncEq par (c0.VI w).ancestorChild (par w) →
              newFlag b (c0.VI w).flag = newFlag (decide ((c.VI (c0.VI w).ancestorChild).flag = 3)) (c0.VI w).flag := by
            intro h0
            have : (c0.VI w).ancestorChild ∈ L := h.anc h0 hr0 hpL
            have hne := primary_zero (h.sub _ this).1
            rcases hb2 with ⟨h1, -⟩ | ⟨-, rfl⟩
            · exact absurd h1 hne
            · rfl
          have hwr' : wrDV c s.g w { c.VI w with flag := newFlag b (c.VI w).flag } =
              some { c with VI := Function.update c.VI w { c.VI w with flag := newFlag b (c.VI w).flag } } := if_pos hwlt
          by_cases hf3 : newFlag b (c0.VI w).flag = 3
          · obtain ⟨o', L', i1, i2, i3, i4, i5⟩ := insertAfter_ins h.ring h.nodup hpL hwL hb hwb
            refine key _ o' L' ?_ ?_ (h.insert hp hF hr0 hwr htie hf0 hf1 hf i5 (by rw [if_pos hf3]) i3 i2 i4)
            · unfold place
              rw [hF.parent w hwp]
              simp only [Option.bind_eq_bind, Option.bind_some, hrd]
              rw [if_neg hp0, hdw, if_neg htie, hb1, Option.bind_some]
              rw [hdw] at hwr'
              rw [hwr', Option.bind_some, if_pos hf3, i1]
              rfl
            · have := List.Perm.length_eq ((List.perm_ext_iff_of_nodup i5.nodup (List.nodup_cons.2 ⟨hwL, h.nodup⟩)).2 (fun x => by
                rw [i5.mem, List.mem_cons, or_comm]))
              rw [this, List.length_cons]
          · obtain ⟨o', L', i1, i2, i3, i4, i5⟩ := insertBefore_ins h.ring h.nodup hpL hwL hp0 hb hwb
            refine key _ o' L' ?_ ?_ (h.insert hp hF hr0 hwr htie hf0 hf1 hf i5 (by rw [if_neg hf3]) i3 i2 i4)
            · unfold place
              rw [hF.parent w hwp]
              simp only [Option.bind_eq_bind, Option.bind_some, hrd]
              rw [if_neg hp0, hdw, if_neg htie, hb1, Option.bind_some]
              rw [hdw] at hwr'
              rw [hwr', Option.bind_some, if_neg hf3, i1]
              rfl
            · have := List.Perm.length_eq ((List.perm_ext_iff_of_nodup i5.nodup (List.nodup_cons.2 ⟨hwL, h.nodup⟩)).2 (fun x => by
                rw [i5.mem, List.mem_cons, or_comm]))
              rw [this, List.length_cons]

end Draw
end Verif
