import Verif.Map.Restrict
import Verif.Test.Sub
import Mathlib.Data.List.Cycle

/-
The rotation system of a graph as a map: the darts are the arcs in the adjacency lists.
-/
namespace Verif.Map
open Equiv Equiv.Perm Verif.Graph Verif.Test

/-- Arcs in the adjacency lists. -/
abbrev Dart (rot : Nat → List Nat) : Type := { e : Nat // ∃ u, e ∈ rot u }

theorem dart_finite {g : Graph} {rot} (h : WInv g rot) : Finite (Dart rot) :=
  Finite.of_injective (β := Fin g.eSize)
    (fun d => ⟨d.1, by obtain ⟨u, hu⟩ := d.2; exact (h.links.arc u _ hu).2⟩)
    (fun a b hab => Subtype.ext (by simpa using hab))

section
variable {g : Graph} {rot : Nat → List Nat} (h : WInv g rot)

/-- The vertex in whose list the arc is. -/
def own (g : Graph) {rot : Nat → List Nat} (d : Dart rot) : Nat := (g.E (twin d.1)).nbr

include h
theorem own_of {u e : Nat} (he : e ∈ rot u) : own g (⟨e, u, he⟩ : Dart rot) = u := h.owner u e he
theorem own_mem (d : Dart rot) : d.1 ∈ rot (own g d) := by
  obtain ⟨e, u, he⟩ := d
  rw [own_of h he]; exact he
theorem own_eq {d : Dart rot} {u : Nat} (he : d.1 ∈ rot u) : own g d = u := h.owner u d.1 he

/-- Successor in the list, cyclically. -/
def sg : Perm (Dart rot) where
  toFun d := ⟨(rot (own g d)).next d.1 (own_mem h d), own g d, List.next_mem _ _ _⟩
  invFun d := ⟨(rot (own g d)).prev d.1 (own_mem h d), own g d, List.prev_mem _ _ _⟩
  left_inv d := by
    apply Subtype.ext
    have : own g (⟨(rot (own g d)).next d.1 (own_mem h d), own g d, List.next_mem _ _ _⟩ : Dart rot) = own g d :=
      own_of h (List.next_mem _ _ _)
    simp only [this]
    exact List.prev_next _ (h.links.nodup _) _ _
  right_inv d := by
    apply Subtype.ext
    have : own g (⟨(rot (own g d)).prev d.1 (own_mem h d), own g d, List.prev_mem _ _ _⟩ : Dart rot) = own g d :=
      own_of h (List.prev_mem _ _ _)
    simp only [this]
    exact List.next_prev _ (h.links.nodup _) _ _

/-- The other arc of the edge. -/
def al : Perm (Dart rot) where
  toFun d := ⟨twin d.1, _, h.twins _ _ (own_mem h d)⟩
  invFun d := ⟨twin d.1, _, h.twins _ _ (own_mem h d)⟩
  left_inv d := Subtype.ext (twin_twin _)
  right_inv d := Subtype.ext (twin_twin _)

theorem al_val (d : Dart rot) : (al h d).1 = twin d.1 := rfl
theorem al_al (d : Dart rot) : al h (al h d) = d := Subtype.ext (twin_twin _)
theorem al_ne (d : Dart rot) : al h d ≠ d := fun hh => twin_ne d.1 (congrArg Subtype.val hh)
theorem own_al (d : Dart rot) : own g (al h d) = (g.E d.1).nbr := by
  unfold own; rw [al_val, twin_twin]
theorem own_sg (d : Dart rot) : own g (sg h d) = own g d := own_of h (List.next_mem _ _ _)

theorem sg_get {u i : Nat} (hi : i < (rot u).length) :
    (sg h ⟨(rot u)[i], u, List.getElem_mem hi⟩).1 = (rot u)[(i + 1) % (rot u).length]'(Nat.mod_lt _ (by omega)) := by
  have ho : own g (⟨(rot u)[i], u, List.getElem_mem hi⟩ : Dart rot) = u := own_of h (List.getElem_mem hi)
  show (rot (own g (⟨(rot u)[i], u, List.getElem_mem hi⟩ : Dart rot))).next _ (own_mem h _) = _
  simp only [ho]
  exact List.next_getElem _ (h.links.nodup u) i hi

theorem sg_pow_get {u i : Nat} (hi : i < (rot u).length) (k : Nat) :
    ((sg h ^ k) ⟨(rot u)[i], u, List.getElem_mem hi⟩).1 = (rot u)[(i + k) % (rot u).length]'(Nat.mod_lt _ (by omega)) := by
  induction k with
  | zero => simp [Nat.mod_eq_of_lt hi]
  | succ k ih =>
    have hlt : (i + k) % (rot u).length < (rot u).length := Nat.mod_lt _ (by omega)
    have he : (sg h ^ k) ⟨(rot u)[i], u, List.getElem_mem hi⟩ = ⟨(rot u)[(i + k) % (rot u).length], u, List.getElem_mem hlt⟩ :=
      Subtype.ext ih
    rw [pow_succ', mul_apply, he, sg_get h hlt]
    congr 1
    rw [Nat.mod_add_mod, Nat.add_assoc]

/-- The cycles of `sg` are the lists. -/
theorem same_sg {d d' : Dart rot} : SameCycle (sg h) d d' ↔ own g d = own g d' := by
  haveI := dart_finite h
  constructor
  · intro hs
    exact cycle_le (r := Setoid.ker (own g)) (fun x => (own_sg h x).symm) hs
  · intro ho
    obtain ⟨i, hi, e1⟩ := List.getElem_of_mem (own_mem h d)
    obtain ⟨j, hj, e2⟩ := List.getElem_of_mem (own_mem h d')
    have hj' : j < (rot (own g d)).length := by rw [ho]; exact hj
    refine ⟨((j + (rot (own g d)).length - i : ℕ) : ℤ), ?_⟩
    rw [zpow_natCast]
    have hd : d = ⟨(rot (own g d))[i], _, List.getElem_mem hi⟩ := Subtype.ext e1.symm
    apply Subtype.ext
    have := sg_pow_get h hi (j + (rot (own g d)).length - i)
    rw [← hd] at this
    rw [this]
    have hm : (i + (j + (rot (own g d)).length - i)) % (rot (own g d)).length = j := by
      rw [show i + (j + (rot (own g d)).length - i) = j + (rot (own g d)).length by omega, Nat.add_mod_right,
        Nat.mod_eq_of_lt hj']
    simp only [hm]
    rw [← e2]
    simp only [ho]

theorem nextCirc_sg (d : Dart rot) : nextCirc g d.1 = some (sg h d).1 := by
  obtain ⟨i, hi, e1⟩ := List.getElem_of_mem (own_mem h d)
  have hd : d = ⟨(rot (own g d))[i], _, List.getElem_mem hi⟩ := Subtype.ext e1.symm
  have hs := sg_get h hi
  rw [← hd] at hs
  rw [hs]
  have hsplit : rot (own g d) = (rot (own g d)).take i ++ d.1 :: (rot (own g d)).drop (i + 1) := by
    rw [← e1]; simp
  have hn := next_eq h.links hsplit
  have hv := h.links.vert _ _ (own_mem h d)
  have ht := h.links.arc _ _ (own_mem h (al h d))
  have h0 := h.links.zero_not_mem (own g d)
  unfold nextCirc
  rw [hn]
  simp only [Option.bind_eq_bind, Option.bind_some]
  by_cases hlast : i + 1 < (rot (own g d)).length
  · have hh : ((rot (own g d)).drop (i + 1)).headD 0 = (rot (own g d))[i + 1] := by
      rw [List.drop_eq_getElem_cons hlast]; rfl
    rw [hh]
    have hne : (rot (own g d))[i + 1] ≠ 0 := fun hz => h0 (hz ▸ List.getElem_mem hlast)
    rw [if_pos hne]
    simp only [Nat.mod_eq_of_lt hlast]
    rfl
  · have hh : (rot (own g d)).drop (i + 1) = [] := List.drop_eq_nil_of_le (by omega)
    rw [hh]
    simp only [List.headD_nil, ne_eq, not_true_eq_false, if_false]
    have hnb : g.getNbr (twin d.1) = some (own g d) := by
      have ht2 : twin d.1 < g.eSize := ht.2
      unfold getNbr rdE
      rw [if_pos ht2]; rfl
    rw [hnb]
    simp only [Option.bind_some]
    rw [first_eq h hv.2]
    have hm : (i + 1) % (rot (own g d)).length = 0 := by
      rw [show i + 1 = (rot (own g d)).length by omega, Nat.mod_self]
    simp only [hm]
    have hpos : 0 < (rot (own g d)).length := by omega
    rw [List.headD_eq_head?_getD, List.head?_eq_getElem?, List.getElem?_eq_getElem hpos]
    rfl

/-- Next arc of a facial walk. -/
def ph : Perm (Dart rot) := sg h * al h
theorem nextCirc_ph (d : Dart rot) : nextCirc g (twin d.1) = some (ph h d).1 := nextCirc_sg h (al h d)

end

/-- The number of classes is the length of any list of representatives. -/
theorem cls_eq {D : Type*} [Finite D] {r : Setoid D} {l : List D} (h1 : l.Pairwise fun a b => ¬ r a b)
    (h2 : ∀ x, ∃ a ∈ l, r a x) : cls r = l.length := by
  unfold cls
  rw [← Nat.card_fin l.length]
  refine (Nat.card_eq_of_bijective (fun i : Fin l.length => Quotient.mk r l[i]) ⟨?_, ?_⟩).symm
  · intro i j hij
    have hr : r l[i] l[j] := Quotient.exact hij
    rw [List.pairwise_iff_getElem] at h1
    rcases Nat.lt_trichotomy i.1 j.1 with h | h | h
    · exact absurd hr (h1 _ _ _ _ h)
    · exact Fin.ext h
    · exact absurd (r.symm hr) (h1 _ _ _ _ h)
  · intro q
    induction q using Quotient.inductionOn with
    | _ x =>
      obtain ⟨a, ha, hr⟩ := h2 x
      obtain ⟨i, hi, rfl⟩ := List.getElem_of_mem ha
      exact ⟨⟨i, hi⟩, Quotient.sound hr⟩

end Verif.Map
