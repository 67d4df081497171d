import Verif.Test.Paths
import Verif.Test.Embedding
import Mathlib.Data.List.Perm.Subperm
import Mathlib.Data.List.Perm.Lattice
import Mathlib.Tactic.Choose

/-
Paths that use every arc make a subdivision.
-/
namespace Verif
namespace Test
open Graph Map Equiv Equiv.Perm Props DFS

theorem links_range (f : Nat → Nat) (k : Nat) :
    links ((List.range (k + 1)).map f) = (List.range k).map fun i => (f i, f (i + 1)) := by
  unfold links
  apply List.ext_getElem
  · simp
  · intro i h1 h2
    simp

section
variable {g : Graph} {rot : Nat → List Nat} (h : WInv g rot)
include h

/-- First dart of the path backwards. -/
noncomputable def back (d : Dart rot) : Dart rot := rev (sg h) (al h) (Deg2 g) d

theorem fin_back (d : Dart rot) : own g (back h d) = fin h d := rfl

theorem back_back {d : Dart rot} (hd : ¬ Deg2 g d) : back h (back h d) = d := rev_rev (thread h) hd

theorem back_fin {d : Dart rot} (hd : ¬ Deg2 g d) : fin h (back h d) = own g d := by
  show own g (back h (back h d)) = _
  rw [back_back h hd]

theorem back_not {d : Dart rot} (hd : ¬ Deg2 g d) : ¬ Deg2 g (back h d) := not_rev (thread h) (ends_of h hd)

theorem plen_back {d : Dart rot} (hd : ¬ Deg2 g d) : plen h (back h d) = plen h d := len_rev (thread h) hd

theorem own_pow_back {d : Dart rot} {i : Nat} (hi : i < plen h d) :
    own g ((ph h ^ (i + 1)) (back h d)) = own g ((ph h ^ (plen h d - i)) d) := by
  have h1 := rev_pow (thread h) d (i + 1) hi
  have h2 : (ph h ^ (i + 1)) (back h d) = al h ((ph h ^ (plen h d - (i + 1))) d) := h1
  rw [h2, own_al, nbr_pow]
  congr 3
  omega

theorem ins_back {d : Dart rot} (hd : ¬ Deg2 g d) (w : Nat) : w ∈ ins h (back h d) ↔ w ∈ ins h d := by
  rw [mem_ins, mem_ins, plen_back h hd]
  constructor
  · rintro ⟨i, hi, rfl⟩
    refine ⟨plen h d - i - 1, by omega, ?_⟩
    rw [own_pow_back h hi]
    congr 3
    omega
  · rintro ⟨i, hi, rfl⟩
    refine ⟨plen h d - i - 1, by omega, ?_⟩
    rw [own_pow_back h (by omega)]
    congr 3
    omega

/-- Darts at a vertex of degree two. -/
theorem deg2_cases {x y : Dart rot} (hx : Deg2 g x) (ho : own g x = own g y) : y = x ∨ y = sg h x := by
  obtain ⟨a, b, hr⟩ := List.length_eq_two.1 hx
  obtain ⟨k0, k1⟩ := sg_two h hr
  have hm := own_mem h x
  have hm' := own_mem h y
  rw [← ho] at hm'
  rw [hr] at hm hm'
  simp only [List.mem_cons, List.not_mem_nil, or_false] at hm hm'
  rcases hm with h1 | h1 <;> rcases hm' with h2 | h2
  · exact .inl (Subtype.ext (h2.trans h1.symm))
  · right
    have hx' : x = ⟨a, _, by rw [hr]; simp⟩ := Subtype.ext h1
    conv_rhs => rw [hx', k0]
    exact Subtype.ext h2
  · right
    have hx' : x = ⟨b, _, by rw [hr]; simp⟩ := Subtype.ext h1
    conv_rhs => rw [hx', k1]
    exact Subtype.ext h2
  · exact .inl (Subtype.ext (h2.trans h1.symm))

/-- Inner vertices of paths meet only if the paths are the same up to direction. -/
theorem ins_meet {d d' : Dart rot} (hd : ¬ Deg2 g d) (hd' : ¬ Deg2 g d') {i j : Nat} (hi : i < plen h d)
    (hj : j < plen h d') (he : own g ((ph h ^ (i + 1)) d) = own g ((ph h ^ (j + 1)) d')) :
    (d = d' ∧ i = j) ∨ d' = back h d := by
  rcases deg2_cases h (plen_min h hi) he with h1 | h1
  · left
    obtain ⟨k1, k2⟩ := path_same (σ := sg h) (α := al h) (T := Deg2 g) (i := i + 1) (j := j + 1) hd hd' hi hj h1.symm
    exact ⟨k1, by omega⟩
  · right
    have h2 : sg h ((ph h ^ (i + 1)) d) = al h ((ph h ^ i) d) := by
      have := (thread h).turn (al h ((ph h ^ i) d)) ((deg2_pow h d i).2 (plen_min h hi))
      rw [pow_succ', mul_apply]
      exact this
    rw [h2] at h1
    have h3 : (ph h ^ (plen h d - i)) (back h d) = al h ((ph h ^ i) d) := by
      have := rev_pow (thread h) d (plen h d - i) (by unfold plen; omega)
      have h4 : (ph h ^ (plen h d - i)) (back h d) = al h ((ph h ^ (plen h d - (plen h d - i))) d) := this
      rw [h4, show plen h d - (plen h d - i) = i by omega]
    rw [← h3] at h1
    have hb : plen h d - i ≤ len (sg h) (al h) (Deg2 g) (back h d) := by
      have := plen_back h hd
      unfold plen at this ⊢
      rw [this]; omega
    exact (path_same (σ := sg h) (α := al h) (T := Deg2 g) hd' (back_not h hd) hj hb h1).1

/-- The vertices of a path. -/
theorem chain_eq (d : Dart rot) :
    own g d :: ins h d ++ [fin h d] = (List.range (plen h d + 1 + 1)).map fun i => own g ((ph h ^ i) d) := by
  rw [List.range_succ, List.map_append, List.range_succ_eq_map, List.map_cons, List.map_map, fin_eq]
  rfl

theorem links_chain (d : Dart rot) :
    links (own g d :: ins h d ++ [fin h d]) =
      (dartsOf (sg h) (al h) (Deg2 g) d).map fun x => (own g x, (g.E x.1).nbr) := by
  rw [chain_eq, links_range]
  unfold dartsOf
  rw [List.map_map]
  apply List.map_congr_left
  intro i _
  have h1 := nbr_pow h d i
  show _ = (own g ((ph h ^ i) d), (g.E ((ph h ^ i) d).1).nbr)
  rw [h1]

end

theorem exists_dartList {rot : Nat → List Nat} (w : Nat) : ∃ L : List (Dart rot), L.map (·.1) = rot w := by
  have key : ∀ K : List Nat, (∀ e ∈ K, e ∈ rot w) → ∃ L : List (Dart rot), L.map (·.1) = K := by
    intro K
    induction K with
    | nil => intro _; exact ⟨[], rfl⟩
    | cons e K ih =>
      intro hK
      obtain ⟨L, hL⟩ := ih fun x hx => hK x (by simp [hx])
      exact ⟨⟨e, w, hK e (by simp)⟩ :: L, by rw [List.map_cons, hL]⟩
  exact key _ fun _ h => h

section
variable {g : Graph} {rot : Nat → List Nat} (h : Inv g rot)
include h

/-- The neighbours, from a list of darts that contains one dart of each edge. -/
theorem neighbors_of_cover {P : List (Dart rot)} (hn : (P ++ P.map (al h.weak)).Nodup)
    (hm : ∀ x, x ∈ P ++ P.map (al h.weak)) {w : Nat} (hw : IsVertex g w) :
    ∃ l, neighbors g w = some l ∧ l.Perm (around (P.map fun x => (own g x, (g.E x.1).nbr)) w) := by
  refine ⟨heads g (rot w), neighbors_eq h (vSize_iff.1 hw).2, ?_⟩
  obtain ⟨L, hL⟩ := exists_dartList (rot := rot) w
  have hLn : L.Nodup := by
    have := h.links.nodup w
    rw [← hL] at this
    exact List.Nodup.of_map _ this
  have hLm : ∀ x : Dart rot, x ∈ L ↔ own g x = w := by
    intro x
    constructor
    · intro hx
      have : x.1 ∈ rot w := by rw [← hL]; exact List.mem_map.2 ⟨x, hx, rfl⟩
      exact own_eq h.weak this
    · intro hx
      have : x.1 ∈ rot w := hx ▸ own_mem h.weak x
      rw [← hL] at this
      obtain ⟨y, hy, he⟩ := List.mem_map.1 this
      exact (Subtype.ext he : y = x) ▸ hy
  have hperm : L.Perm ((P ++ P.map (al h.weak)).filter fun x => decide (own g x = w)) := by
    rw [List.perm_ext_iff_of_nodup hLn (hn.filter _)]
    intro x
    rw [hLm, List.mem_filter]
    simp [hm x]
  have h1 : heads g (rot w) = L.map fun x => (g.E x.1).nbr := by
    unfold heads
    rw [← hL, List.map_map]; rfl
  rw [h1]
  refine (hperm.map _).trans ?_
  rw [List.filter_append, List.map_append]
  unfold around
  apply List.Perm.of_eq
  congr 1
  · rw [List.filter_map, List.map_map]
    rfl
  · rw [List.filter_map, List.filter_map, List.map_map, List.map_map]
    congr 1
    refine congrArg (fun q => List.filter q P) (funext fun x => ?_)
    simp only [Function.comp, own_al]

/-- The edges `E` are realised by the paths of the darts `c`. -/
structure Realised (n : Nat) (E : List (Nat × Nat)) (B : Nat → Nat) (c : Nat × Nat → Dart rot) : Prop where
  range : ∀ p ∈ E, p.1 < n ∧ p.2 < n ∧ p.1 ≠ p.2
  nodup : E.Nodup
  asymm : ∀ p ∈ E, (p.2, p.1) ∉ E
  inj : ∀ i j, i < n → j < n → B i = B j → i = j
  deg : ∀ i, i < n → (rot (B i)).length ≠ 2 ∧
      (rot (B i)).length = (E.filter fun p => p.1 = i).length + (E.filter fun p => p.2 = i).length
  start : ∀ p ∈ E, own g (c p) = B p.1
  stop : ∀ p ∈ E, fin h.weak (c p) = B p.2

section
variable {n : Nat} {E : List (Nat × Nat)} {B : Nat → Nat} {c : Nat × Nat → Dart rot} (hR : Realised h n E B c)
include hR

theorem Realised.not2 : ∀ p ∈ E, ¬ Deg2 g (c p) := by
    intro p hp hc
    have := (hR.deg p.1 (hR.range p hp).1).1
    unfold Deg2 at hc
    rw [hR.start p hp] at hc
    exact this hc

theorem Realised.cinj : ∀ p ∈ E, ∀ q ∈ E, c p = c q → p = q := by
    intro p hp q hq he
    have h1 : B p.1 = B q.1 := by rw [← hR.start p hp, ← hR.start q hq, he]
    have h2 : B p.2 = B q.2 := by rw [← hR.stop p hp, ← hR.stop q hq, he]
    exact Prod.ext (hR.inj _ _ (hR.range p hp).1 (hR.range q hq).1 h1) (hR.inj _ _ (hR.range p hp).2.1 (hR.range q hq).2.1 h2)

theorem Realised.cback : ∀ p ∈ E, ∀ q ∈ E, c p ≠ back h.weak (c q) := by
    intro p hp q hq he
    have h1 : B p.1 = B q.2 := by rw [← hR.start p hp, he, fin_back, hR.stop q hq]
    have h2 : B p.2 = B q.1 := by rw [← hR.stop p hp, he, back_fin h.weak (hR.not2 h q hq), hR.start q hq]
    have : p = (q.2, q.1) := Prod.ext (hR.inj _ _ (hR.range p hp).1 (hR.range q hq).2.1 h1) (hR.inj _ _ (hR.range p hp).2.1 (hR.range q hq).1 h2)
    exact hR.asymm q hq (this ▸ hp)

/-- Every dart at an image starts a path or ends one. -/
theorem Realised.at : ∀ i, i < n → ∀ x : Dart rot, own g x = B i →
      (∃ p ∈ E, p.1 = i ∧ x = c p) ∨ ∃ p ∈ E, p.2 = i ∧ x = back h.weak (c p) := by
    intro i hi x hx
    obtain ⟨L, hL⟩ := exists_dartList (rot := rot) (B i)
    let K : List (Dart rot) := (E.filter fun p => p.1 = i).map c ++ (E.filter fun p => p.2 = i).map fun p => back h.weak (c p)
    have hKn : K.Nodup := by
      rw [List.nodup_append]
      refine ⟨?_, ?_, ?_⟩
      · refine (List.nodup_map_iff_inj_on (hR.nodup.filter _)).2 ?_
        intro p hp q hq he
        exact hR.cinj h p (List.mem_of_mem_filter hp) q (List.mem_of_mem_filter hq) he
      · refine (List.nodup_map_iff_inj_on (hR.nodup.filter _)).2 ?_
        intro p hp q hq he
        have hp := List.mem_of_mem_filter hp
        have hq := List.mem_of_mem_filter hq
        refine hR.cinj h p hp q hq ?_
        rw [← back_back h.weak (hR.not2 h p hp), he, back_back h.weak (hR.not2 h q hq)]
      · intro a ha b hb hab
        obtain ⟨p, hp, rfl⟩ := List.mem_map.1 ha
        obtain ⟨q, hq, rfl⟩ := List.mem_map.1 hb
        exact hR.cback h p (List.mem_of_mem_filter hp) q (List.mem_of_mem_filter hq) hab
    have hKL : K ⊆ L := by
      intro y hy
      have hyo : own g y = B i := by
        rcases List.mem_append.1 hy with hy | hy
        · obtain ⟨p, hp, rfl⟩ := List.mem_map.1 hy
          have := List.of_mem_filter hp
          rw [hR.start p (List.mem_of_mem_filter hp), of_decide_eq_true this]
        · obtain ⟨p, hp, rfl⟩ := List.mem_map.1 hy
          have := List.of_mem_filter hp
          rw [fin_back, hR.stop p (List.mem_of_mem_filter hp), of_decide_eq_true this]
      have hm : y.1 ∈ rot (B i) := hyo ▸ own_mem h.weak y
      rw [← hL] at hm
      obtain ⟨z, hz, he⟩ := List.mem_map.1 hm
      exact (Subtype.ext he : z = y) ▸ hz
    have hlen : L.length ≤ K.length := by
      have h1 : L.length = (rot (B i)).length := by rw [← hL, List.length_map]
      rw [h1, (hR.deg i hi).2, List.length_append, List.length_map, List.length_map]
    have hxL : x ∈ L := by
      have hm : x.1 ∈ rot (B i) := hx ▸ own_mem h.weak x
      rw [← hL] at hm
      obtain ⟨z, hz, he⟩ := List.mem_map.1 hm
      exact (Subtype.ext he : z = x) ▸ hz
    have hxK : x ∈ K := ((List.subperm_of_subset hKn hKL).perm_of_length_le hlen).symm.subset hxL
    rcases List.mem_append.1 hxK with hy | hy
    · obtain ⟨p, hp, rfl⟩ := List.mem_map.1 hy
      exact .inl ⟨p, List.mem_of_mem_filter hp, by have := List.of_mem_filter hp; exact of_decide_eq_true this, rfl⟩
    · obtain ⟨p, hp, rfl⟩ := List.mem_map.1 hy
      exact .inr ⟨p, List.mem_of_mem_filter hp, by have := List.of_mem_filter hp; exact of_decide_eq_true this, rfl⟩

/-- Paths between images. -/
theorem Realised.conn {i j : Nat} (hi : i < n) (hj : j < n) {d : Dart rot} (h1 : own g d = B i) (h2 : fin h.weak d = B j) :
    ((i, j) ∈ E ∧ d = c (i, j)) ∨ ((j, i) ∈ E ∧ d = back h.weak (c (j, i))) := by
  rcases hR.at h i hi d h1 with ⟨p, hp, rfl, rfl⟩ | ⟨p, hp, rfl, rfl⟩
  · rw [hR.stop p hp] at h2
    have := hR.inj _ _ (hR.range p hp).2.1 hj h2
    subst this
    exact .inl ⟨hp, rfl⟩
  · rw [back_fin h.weak (hR.not2 h p hp), hR.start p hp] at h2
    have := hR.inj _ _ (hR.range p hp).1 hj h2
    subst this
    exact .inr ⟨hp, rfl⟩

end

/-- Paths between the images of the vertices of a graph with the edges `E`, which leave no arc at these images and no
vertex of degree two unused, make `g` a subdivision. -/
theorem subdivision_of [Nonempty (Dart rot)] {n : Nat} {E : List (Nat × Nat)} {B : Nat → Nat}
    (hE : ∀ p ∈ E, p.1 < n ∧ p.2 < n ∧ p.1 ≠ p.2) (hEn : E.Nodup) (hEs : ∀ p ∈ E, (p.2, p.1) ∉ E)
    (hBi : ∀ i j, i < n → j < n → B i = B j → i = j) (hBp : ∀ i, i < n → 1 ≤ B i ∧ B i ≤ g.N)
    (hprim : ∀ u e, e ∈ rot u → 1 ≤ u ∧ u ≤ g.N)
    (hdeg : ∀ u, rot u ≠ [] → (rot u).length = 2 ∨ ∃ i, i < n ∧ u = B i)
    (hB : ∀ i, i < n → (rot (B i)).length ≠ 2 ∧
      (rot (B i)).length = (E.filter fun p => p.1 = i).length + (E.filter fun p => p.2 = i).length)
    (hp : ∀ p ∈ E, ∃ d : Dart rot, own g d = B p.1 ∧ fin h.weak d = B p.2)
    (hcov : ∀ u, (rot u).length = 2 → ∃ i j, ((i, j) ∈ E ∨ (j, i) ∈ E) ∧
      ∃ d : Dart rot, own g d = B i ∧ fin h.weak d = B j ∧ u ∈ ins h.weak d) :
    IsSubdivision g n E := by
  have hfin := dart_finite h.weak
  have hth := thread h.weak
  choose! c hc1 hc2 using hp
  have hR : Realised h n E B c := ⟨hE, hEn, hEs, hBi, hB, hc1, hc2⟩
  have hcT := hR.not2 h
  have hcinj := hR.cinj h
  have hcback := hR.cback h
  have hat := hR.at h
  let ds : List (Dart rot) := E.map c
  have hds : ∀ d ∈ ds, ∃ p ∈ E, c p = d := fun d hd => by
    obtain ⟨p, hp, rfl⟩ := List.mem_map.1 hd
    exact ⟨p, hp, rfl⟩
  have hn1 := cover_nodup hth (ds := ds)
    (fun d hd => by obtain ⟨p, hp, rfl⟩ := hds d hd; exact hcT p hp)
    ((List.nodup_map_iff_inj_on hEn).2 fun p hp q hq he => hcinj p hp q hq he)
    (fun d hd d' hd' => by
      obtain ⟨p, hp, rfl⟩ := hds d hd
      obtain ⟨q, hq, rfl⟩ := hds d' hd'
      exact hcback p hp q hq)
  have hm1 := cover_mem hth (ds := ds)
    (fun x hx => by
      have hxo := own_mem h.weak x
      rcases hdeg (own g x) (List.ne_nil_of_mem hxo) with h1 | ⟨i, hi, h1⟩
      · exact absurd h1 hx
      · rcases hat i hi x h1 with ⟨p, hp, _, rfl⟩ | ⟨p, hp, _, rfl⟩
        · exact ⟨c p, List.mem_map.2 ⟨p, hp, rfl⟩, .inl rfl⟩
        · exact ⟨c p, List.mem_map.2 ⟨p, hp, rfl⟩, .inr rfl⟩)
    (fun x hx => by
      obtain ⟨i, j, hij, d, k1, k2, k3⟩ := hcov (own g x) hx
      have hin : i < n := by
        rcases hij with h1 | h1
        · exact (hE _ h1).1
        · exact (hE _ h1).2.1
      have hjn : j < n := by
        rcases hij with h1 | h1
        · exact (hE _ h1).2.1
        · exact (hE _ h1).1
      have : ∃ p ∈ E, own g x ∈ ins h.weak (c p) := by
        rcases hat i hin d k1 with ⟨p, hp, _, rfl⟩ | ⟨p, hp, _, rfl⟩
        · exact ⟨p, hp, k3⟩
        · exact ⟨p, hp, (ins_back h.weak (hcT p hp) _).1 k3⟩
      obtain ⟨p, hp, k4⟩ := this
      obtain ⟨t, ht, k5⟩ := (mem_ins h.weak).1 k4
      exact ⟨c p, List.mem_map.2 ⟨p, hp, rfl⟩, t, ht, (same_sg h.weak).2 k5.symm⟩)
  have hins2 : ∀ p ∈ E, ∀ w ∈ ins h.weak (c p), (rot w).length = 2 := by
    intro p hp w hw
    obtain ⟨t, ht, rfl⟩ := (mem_ins h.weak).1 hw
    exact plen_min h.weak ht
  refine ⟨B, fun p => ins h.weak (c p), ?_, ?_, ?_⟩
  · rw [List.nodup_append]
    refine ⟨?_, ?_, ?_⟩
    · refine (List.nodup_map_iff_inj_on List.nodup_range).2 ?_
      intro i hi j hj he
      exact hBi i j (List.mem_range.1 hi) (List.mem_range.1 hj) he
    · rw [List.nodup_flatMap]
      refine ⟨?_, ?_⟩
      · intro p hp
        unfold ins
        refine (List.nodup_map_iff_inj_on List.nodup_range).2 ?_
        intro i hi j hj he
        rcases ins_meet h.weak (hcT p hp) (hcT p hp) (List.mem_range.1 hi) (List.mem_range.1 hj) he with h1 | h1
        · exact h1.2
        · exact absurd h1 (hcback p hp p hp)
      · rw [List.nodup_iff_pairwise_ne] at hEn
        refine hEn.imp_of_mem ?_
        intro p q hp hq hpq w hw hw'
        obtain ⟨i, hi, h1⟩ := (mem_ins h.weak).1 hw
        obtain ⟨j, hj, h2⟩ := (mem_ins h.weak).1 hw'
        rcases ins_meet h.weak (hcT p hp) (hcT q hq) hi hj (h1.trans h2.symm) with h3 | h3
        · exact hpq (hcinj p hp q hq h3.1)
        · exact hcback q hq p hp h3
    · intro a ha b hb hab
      subst hab
      obtain ⟨i, hi, rfl⟩ := List.mem_map.1 ha
      obtain ⟨p, hp, h1⟩ := List.mem_flatMap.1 hb
      exact (hB i (List.mem_range.1 hi)).1 (hins2 p hp _ h1)
  · intro w hw
    rcases List.mem_append.1 hw with h1 | h1
    · obtain ⟨i, hi, rfl⟩ := List.mem_map.1 h1
      exact hBp i (List.mem_range.1 hi)
    · obtain ⟨p, hp, h1⟩ := List.mem_flatMap.1 h1
      have h2 := hins2 p hp w h1
      obtain ⟨e, he⟩ := List.exists_mem_of_ne_nil (rot w) (fun hc => by rw [hc] at h2; simp at h2)
      exact hprim w e he
  · intro w hw
    obtain ⟨l, h1, h2⟩ := neighbors_of_cover h hn1 hm1 hw
    refine ⟨l, h1, ?_⟩
    have h3 : steps B (fun p => ins h.weak (c p)) E =
        (ds.flatMap (dartsOf (sg h.weak) (al h.weak) (Deg2 g))).map fun x => (own g x, (g.E x.1).nbr) := by
      unfold steps
      rw [List.map_flatMap, List.flatMap_map]
      apply List.flatMap_congr
      intro p hp
      rw [← links_chain, hc1 p hp, hc2 p hp]
    rw [h3]
    exact h2

end

end Test
end Verif
