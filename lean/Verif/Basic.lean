import Mathlib.Data.List.Nodup

/-
Basic list facts used by the whole development.

`nextIn L e` is the element that follows `e` in `L` (0 = NIL when there is none); `dir b L` is
the list read forwards (`b = false`, link 0) or backwards (`b = true`, link 1).
-/
namespace Verif

/-- Element following the first occurrence of `e` in the list, `0` (NIL) if none. -/
def nextIn : List Nat → Nat → Nat
  | [], _ => 0
  | a :: L, e => if a = e then L.headD 0 else nextIn L e

/-- Reading direction: link 0 reads forwards, link 1 backwards. -/
def dir (b : Bool) (L : List Nat) : List Nat := if b then L.reverse else L

/-- First element in the given reading direction, NIL if the list is empty. -/
def endIn (b : Bool) (L : List Nat) : Nat := (dir b L).headD 0

@[simp] theorem dir_false (L : List Nat) : dir false L = L := rfl
@[simp] theorem dir_true (L : List Nat) : dir true L = L.reverse := rfl
@[simp] theorem dir_nil (b) : dir b [] = [] := by cases b <;> rfl
@[simp] theorem mem_dir {b L} {e : Nat} : e ∈ dir b L ↔ e ∈ L := by cases b <;> simp
theorem nodup_dir {b} {L : List Nat} (h : L.Nodup) : (dir b L).Nodup := by
  cases b <;> simp [List.nodup_reverse, h]
theorem dir_dir_not (b : Bool) (L : List Nat) : dir (!b) L = (dir b L).reverse := by
  cases b <;> simp

@[simp] theorem nextIn_nil (e) : nextIn [] e = 0 := rfl
@[simp] theorem nextIn_cons_self (a L) : nextIn (a :: L) a = L.headD 0 := by simp [nextIn]
theorem nextIn_cons_ne {a e} (L) (h : a ≠ e) : nextIn (a :: L) e = nextIn L e := by
  simp [nextIn, h]

theorem headD_mem_or {L : List Nat} : L.headD 0 = 0 ∧ L = [] ∨ L.headD 0 ∈ L := by
  cases L <;> simp

theorem nextIn_mem_or (L : List Nat) (e : Nat) : nextIn L e = 0 ∨ nextIn L e ∈ L := by
  induction L with
  | nil => simp
  | cons a L ih =>
    by_cases h : a = e
    · subst h; simp only [nextIn_cons_self]
      rcases headD_mem_or (L := L) with h | h
      · exact .inl h.1
      · exact .inr (List.mem_cons_of_mem _ h)
    · rw [nextIn_cons_ne _ h]
      rcases ih with h | h
      · exact .inl h
      · exact .inr (List.mem_cons_of_mem _ h)

theorem nextIn_of_not_mem {L : List Nat} {e : Nat} (h : e ∉ L) : nextIn L e = 0 := by
  induction L with
  | nil => rfl
  | cons a L ih =>
    simp only [List.mem_cons, not_or] at h
    rw [nextIn_cons_ne _ (Ne.symm h.1)]; exact ih h.2

theorem headD_append (A B : List Nat) : (A ++ B).headD 0 = if A = [] then B.headD 0 else A.headD 0 := by
  cases A <;> simp

/-- Following `e` in `A ++ B` when `e` is in `A`. -/
theorem nextIn_append_left {A B : List Nat} {e : Nat} (h : e ∈ A) (h0 : 0 ∉ A) :
    nextIn (A ++ B) e = if nextIn A e = 0 then B.headD 0 else nextIn A e := by
  induction A with
  | nil => simp at h
  | cons a A ih =>
    simp only [List.mem_cons, not_or] at h0
    by_cases ha : a = e
    · subst ha
      simp only [List.cons_append, nextIn_cons_self]
      cases A with
      | nil => simp
      | cons c A => simp at h0 ⊢; intro hc; exact absurd hc.symm h0.2.1
    · rw [List.cons_append, nextIn_cons_ne _ ha, nextIn_cons_ne _ ha]
      apply ih
      · rcases List.mem_cons.1 h with h | h
        · exact absurd h.symm ha
        · exact h
      · exact h0.2

theorem nextIn_append_right {A B : List Nat} {e : Nat} (h : e ∉ A) :
    nextIn (A ++ B) e = nextIn B e := by
  induction A with
  | nil => rfl
  | cons a A ih =>
    simp only [List.mem_cons, not_or] at h
    rw [List.cons_append, nextIn_cons_ne _ (Ne.symm h.1)]; exact ih h.2

/-- In a duplicate-free list, nothing is followed by the head. -/
theorem nextIn_ne_head {a : Nat} {L : List Nat} (h : (a :: L).Nodup) (ha0 : a ≠ 0) (e : Nat) :
    nextIn (a :: L) e ≠ a := by
  have haL := (List.nodup_cons.1 h).1
  by_cases he : a = e
  · subst he; rw [nextIn_cons_self]
    rcases headD_mem_or (L := L) with h | h
    · rw [h.1]; exact Ne.symm ha0
    · intro hh; rw [hh] at h; exact haL h
  · rw [nextIn_cons_ne _ he]
    rcases nextIn_mem_or L e with h | h
    · rw [h]; exact Ne.symm ha0
    · intro hh; rw [hh] at h; exact haL h

/-- Successor and predecessor are inverse: `x` follows `e` iff `e` precedes `x`. -/
theorem nextIn_eq_iff {L : List Nat} (hn : L.Nodup) (h0 : 0 ∉ L) {e x : Nat}
    (he : e ∈ L) (hx : x ∈ L) : nextIn L e = x ↔ nextIn L.reverse x = e := by
  induction L with
  | nil => simp at he
  | cons a L ih =>
    have hn' := List.nodup_cons.1 hn
    simp only [List.mem_cons, not_or] at h0
    have h0r : 0 ∉ L.reverse := by simpa using h0.2
    rw [List.reverse_cons]
    by_cases hxa : x = a
    · subst hxa
      constructor
      · intro h; exact absurd h (nextIn_ne_head hn (Ne.symm h0.1) e)
      · intro h
        rw [nextIn_append_right (by simpa using hn'.1)] at h
        simp at h
        subst h; simp at he
        rcases he with h | h
        · exact absurd h h0.1
        · exact absurd h h0.2
    · have hxL : x ∈ L := by
        rcases List.mem_cons.1 hx with h | h
        · exact absurd h hxa
        · exact h
      rw [nextIn_append_left (by simpa using hxL) h0r]
      by_cases hea : a = e
      · subst hea
        rw [nextIn_cons_self]
        cases L with
        | nil => simp at hxL
        | cons c L =>
          simp only [List.headD_cons]
          constructor
          · intro h; subst h
            simp only [List.reverse_cons]
            rw [nextIn_append_right (by simpa using (List.nodup_cons.1 hn'.2).1)]
            simp
          · intro h
            split at h
            · next hz =>
              by_cases hcx : c = x
              · exact hcx
              · exfalso
                have hxL' : x ∈ L := by
                  rcases List.mem_cons.1 hxL with h | h
                  · exact absurd h.symm hcx
                  · exact h
                simp only [List.reverse_cons] at hz
                rw [nextIn_append_left (by simpa using hxL') (by simp at h0 ⊢; exact h0.2.2)] at hz
                simp at h0 hz
                split at hz
                · exact h0.2.1 hz.symm
                · contradiction
            · next hz =>
              have := nextIn_mem_or (c :: L).reverse x
              rw [h] at this
              rcases this with h | h
              · exact absurd h.symm h0.1
              · exact absurd (List.mem_reverse.1 h) hn'.1
      · have heL : e ∈ L := by
          rcases List.mem_cons.1 he with h | h
          · exact absurd h.symm hea
          · exact h
        rw [nextIn_cons_ne _ hea, ih hn'.2 h0.2 heL hxL]
        constructor
        · intro h; rw [h]; simp; intro h; subst h; exact absurd heL h0.2
        · intro h
          split at h
          · simp at h; exact absurd h hea
          · exact h

/-- Being the last element: nothing follows. -/
theorem nextIn_eq_zero_iff {L : List Nat} (hn : L.Nodup) (h0 : 0 ∉ L) {e : Nat} (he : e ∈ L) :
    nextIn L e = 0 ↔ L.reverse.headD 0 = e := by
  induction L with
  | nil => simp at he
  | cons a L ih =>
    have hn' := List.nodup_cons.1 hn
    simp only [List.mem_cons, not_or] at h0
    rw [List.reverse_cons, headD_append]
    by_cases ha : a = e
    · subst ha
      cases L with
      | nil => simp
      | cons c L =>
        simp only [nextIn_cons_self, List.headD_cons]
        constructor
        · intro h; subst h; simp at h0
        · intro h
          simp only [List.reverse_eq_nil_iff, reduceCtorEq, if_false] at h
          rcases headD_mem_or (L := (c :: L).reverse) with hh | hh
          · simp at hh
          · rw [h] at hh; exact absurd (List.mem_reverse.1 hh) hn'.1
    · have heL : e ∈ L := by
        rcases List.mem_cons.1 he with h | h
        · exact absurd h.symm ha
        · exact h
      rw [nextIn_cons_ne _ ha, ih hn'.2 h0.2 heL]
      have : L ≠ [] := by intro h; subst h; simp at heL
      simp [this]

/-- Removing `x` from a list. -/
def without (x : Nat) (L : List Nat) : List Nat := L.filter (· ≠ x)

@[simp] theorem mem_without {x e : Nat} {L} : e ∈ without x L ↔ e ∈ L ∧ e ≠ x := by
  simp [without]
theorem dir_without (b x L) : dir b (without x L) = without x (dir b L) := by
  cases b <;> simp [without, List.filter_reverse]
theorem nodup_without {x} {L : List Nat} (h : L.Nodup) : (without x L).Nodup := h.filter _
theorem without_of_not_mem {x : Nat} {L} (h : x ∉ L) : without x L = L := by
  unfold without; rw [List.filter_eq_self]; intro a ha; simp; rintro rfl; exact h ha
theorem without_cons_self (x L) : without x (x :: L) = without x L := by simp [without]
theorem without_cons_ne {x a} (L) (h : a ≠ x) : without x (a :: L) = a :: without x L := by
  simp [without, h]

theorem headD_without {L : List Nat} (hn : L.Nodup) (x : Nat) :
    (without x L).headD 0 = if L.headD 0 = x then nextIn L x else L.headD 0 := by
  cases L with
  | nil => simp [without]
  | cons a L =>
    have hn' := List.nodup_cons.1 hn
    by_cases h : a = x
    · subst h; rw [without_cons_self, without_of_not_mem hn'.1]; simp
    · rw [without_cons_ne _ h]; simp [h]

theorem nextIn_without {L : List Nat} (hn : L.Nodup) {e x : Nat} (hex : e ≠ x) (hx : x ≠ 0) :
    nextIn (without x L) e = if nextIn L e = x then nextIn L x else nextIn L e := by
  induction L with
  | nil => exact (ite_self _).symm
  | cons a L ih =>
    have hn' := List.nodup_cons.1 hn
    by_cases hax : a = x
    · subst hax
      rw [without_cons_self, without_of_not_mem hn'.1, nextIn_cons_ne _ (Ne.symm hex)]
      rcases nextIn_mem_or L e with h | h
      · rw [h, if_neg (Ne.symm hx)]
      · rw [if_neg]; intro hh; rw [hh] at h; exact hn'.1 h
    · rw [without_cons_ne _ hax]
      by_cases hae : a = e
      · subst hae; simp only [nextIn_cons_self]
        rw [headD_without hn'.2, nextIn_cons_ne _ hax]
      · rw [nextIn_cons_ne _ hae, nextIn_cons_ne _ hae, nextIn_cons_ne _ hax]
        exact ih hn'.2

/-- Insert `x` immediately after `e` (nothing happens if `e` does not occur). -/
def insertAfter (e x : Nat) : List Nat → List Nat
  | [] => []
  | a :: L => if a = e then a :: x :: L else a :: insertAfter e x L
/-- Insert `x` immediately before `e`. -/
def insertBefore (e x : Nat) : List Nat → List Nat
  | [] => []
  | a :: L => if a = e then x :: a :: L else a :: insertBefore e x L

theorem insertAfter_append {e x : Nat} {A B : List Nat} (h : e ∈ A) :
    insertAfter e x (A ++ B) = insertAfter e x A ++ B := by
  induction A with
  | nil => simp at h
  | cons a A ih =>
    by_cases ha : a = e
    · simp [insertAfter, ha]
    · have : e ∈ A := by
        rcases List.mem_cons.1 h with h | h
        · exact absurd h.symm ha
        · exact h
      simp [insertAfter, ha, ih this]
theorem insertBefore_append_right {e x : Nat} {A B : List Nat} (h : e ∉ A) :
    insertBefore e x (A ++ B) = A ++ insertBefore e x B := by
  induction A with
  | nil => rfl
  | cons a A ih =>
    simp only [List.mem_cons, not_or] at h
    simp [insertBefore, Ne.symm h.1, ih h.2]
theorem insertAfter_append_right {e x : Nat} {A B : List Nat} (h : e ∉ A) :
    insertAfter e x (A ++ B) = A ++ insertAfter e x B := by
  induction A with
  | nil => rfl
  | cons a A ih =>
    simp only [List.mem_cons, not_or] at h
    simp [insertAfter, Ne.symm h.1, ih h.2]
theorem insertBefore_append {e x : Nat} {A B : List Nat} (h : e ∈ A) :
    insertBefore e x (A ++ B) = insertBefore e x A ++ B := by
  induction A with
  | nil => simp at h
  | cons a A ih =>
    by_cases ha : a = e
    · simp [insertBefore, ha]
    · have : e ∈ A := by
        rcases List.mem_cons.1 h with h | h
        · exact absurd h.symm ha
        · exact h
      simp [insertBefore, ha, ih this]

theorem insertAfter_of_not_mem {e x : Nat} {L : List Nat} (h : e ∉ L) : insertAfter e x L = L := by
  have := insertAfter_append_right (x := x) (B := []) h
  simpa [insertAfter] using this
theorem insertBefore_of_not_mem {e x : Nat} {L : List Nat} (h : e ∉ L) :
    insertBefore e x L = L := by
  have := insertBefore_append_right (x := x) (B := []) h
  simpa [insertBefore] using this

theorem reverse_insertAfter {e x : Nat} {L : List Nat} (hn : L.Nodup) :
    (insertAfter e x L).reverse = insertBefore e x L.reverse := by
  induction L with
  | nil => rfl
  | cons a L ih =>
    have hn' := List.nodup_cons.1 hn
    by_cases ha : a = e
    · subst ha
      simp only [insertAfter, if_true, List.reverse_cons]
      rw [insertBefore_append_right (by simpa using hn'.1)]
      simp [insertBefore]
    · simp only [insertAfter, ha, if_false, List.reverse_cons]
      rw [ih hn'.2]
      by_cases he : e ∈ L
      · rw [insertBefore_append (by simpa using he)]
      · rw [insertBefore_append_right (by simpa using he), insertBefore_of_not_mem (by simpa using he)]
        simp [insertBefore, ha]

theorem reverse_insertBefore {e x : Nat} {L : List Nat} (hn : L.Nodup) :
    (insertBefore e x L).reverse = insertAfter e x L.reverse := by
  have := reverse_insertAfter (e := e) (x := x) (L := L.reverse) (List.nodup_reverse.2 hn)
  rw [List.reverse_reverse] at this
  rw [← this, List.reverse_reverse]

theorem insertAfter_perm {e x : Nat} {L : List Nat} (he : e ∈ L) :
    (insertAfter e x L).Perm (x :: L) := by
  induction L with
  | nil => simp at he
  | cons a L ih =>
    by_cases ha : a = e
    · simp only [insertAfter, ha, if_true]; exact List.Perm.swap _ _ _
    · have he' : e ∈ L := by
        rcases List.mem_cons.1 he with h | h
        · exact absurd h.symm ha
        · exact h
      simp only [insertAfter, ha, if_false]
      exact ((ih he').cons a).trans (List.Perm.swap _ _ _)

theorem insertBefore_perm {e x : Nat} {L : List Nat} (he : e ∈ L) :
    (insertBefore e x L).Perm (x :: L) := by
  induction L with
  | nil => simp at he
  | cons a L ih =>
    by_cases ha : a = e
    · simp only [insertBefore, ha, if_true]; exact List.Perm.refl _
    · have he' : e ∈ L := by
        rcases List.mem_cons.1 he with h | h
        · exact absurd h.symm ha
        · exact h
      simp only [insertBefore, ha, if_false]
      exact ((ih he').cons a).trans (List.Perm.swap _ _ _)

theorem nextIn_insertAfter {L : List Nat} {e x : Nat} (he : e ∈ L) (hx : x ∉ L) (y : Nat) :
    nextIn (insertAfter e x L) y =
      if y = e then x else if y = x then nextIn L e else nextIn L y := by
  induction L with
  | nil => simp at he
  | cons a L ih =>
    simp only [List.mem_cons, not_or] at hx
    by_cases ha : a = e
    · subst ha
      simp only [insertAfter, if_true]
      by_cases hy : y = a
      · subst hy; simp
      · rw [nextIn_cons_ne _ (Ne.symm hy), if_neg hy]
        by_cases hyx : y = x
        · subst hyx; simp
        · rw [nextIn_cons_ne _ (Ne.symm hyx), if_neg hyx, nextIn_cons_ne _ (Ne.symm hy)]
    · have he' : e ∈ L := by
        rcases List.mem_cons.1 he with h | h
        · exact absurd h.symm ha
        · exact h
      simp only [insertAfter, ha, if_false]
      by_cases hy : y = a
      · subst hy
        rw [if_neg ha, if_neg (Ne.symm hx.1)]
        simp only [nextIn_cons_self]
        cases L with
        | nil => simp at he'
        | cons c L =>
          by_cases hc : c = e <;> simp [insertAfter, hc]
      · rw [nextIn_cons_ne _ (Ne.symm hy), ih he' hx.2, nextIn_cons_ne _ ha,
          nextIn_cons_ne _ (Ne.symm hy)]

theorem headD_insertAfter (L : List Nat) (e x : Nat) :
    (insertAfter e x L).headD 0 = L.headD 0 := by
  cases L with
  | nil => rfl
  | cons a L => by_cases h : a = e <;> simp [insertAfter, h]

theorem headD_insertBefore {L : List Nat} {e x : Nat} (he : e ∈ L) :
    (insertBefore e x L).headD 0 = if L.headD 0 = e then x else L.headD 0 := by
  cases L with
  | nil => simp at he
  | cons a L => by_cases h : a = e <;> simp [insertBefore, h]

theorem nextIn_insertBefore {L : List Nat} {e x : Nat} (hn : L.Nodup) (h0 : 0 ∉ L)
    (he : e ∈ L) (hx : x ∉ L) (y : Nat) :
    nextIn (insertBefore e x L) y =
      if y = x then e else if nextIn L y = e then x else nextIn L y := by
  induction L with
  | nil => simp at he
  | cons a L ih =>
    have hn' := List.nodup_cons.1 hn
    simp only [List.mem_cons, not_or] at hx h0
    by_cases ha : a = e
    · subst ha
      simp only [insertBefore, if_true]
      by_cases hy : y = x
      · subst hy; simp
      · rw [nextIn_cons_ne _ (Ne.symm hy), if_neg hy, if_neg (nextIn_ne_head hn (Ne.symm h0.1) y)]
    · have he' : e ∈ L := by
        rcases List.mem_cons.1 he with h | h
        · exact absurd h.symm ha
        · exact h
      simp only [insertBefore, ha, if_false]
      by_cases hy : y = a
      · subst hy
        rw [if_neg (Ne.symm hx.1)]
        simp only [nextIn_cons_self]
        exact headD_insertBefore he'
      · rw [nextIn_cons_ne _ (Ne.symm hy), ih hn'.2 h0.2 he' hx.2, nextIn_cons_ne _ (Ne.symm hy)]

end Verif
