import Verif.Util.ListColl
import Mathlib.Data.List.Nodup
import Mathlib.Data.List.Chain

/-
Lemmas: rings of nodes under the list collection operations.
-/
namespace Verif.LC

/-- `b` follows `a`. -/
def R (c : Coll) (a b : Nat) : Prop := c.next a = b ∧ c.prev b = a

/-- The nodes of the sequence form a ring in this order. -/
def Ring (c : Coll) : List Nat → Prop
  | [] => True
  | h :: t => List.IsChain (R c) (h :: (t ++ [h]))

theorem ring_iff {c : Coll} {h t} : Ring c (h :: t) ↔ List.IsChain (R c) (h :: (t ++ [h])) := Iff.rfl

theorem ring_rotate1 {c : Coll} {a t} : Ring c (a :: t) ↔ Ring c (t ++ [a]) := by
  cases t with
  | nil => rfl
  | cons b s =>
    rw [List.cons_append, ring_iff, ring_iff, List.cons_append, List.isChain_cons_cons,
      ← List.cons_append, ← List.cons_append, List.isChain_append (l₁ := b :: (s ++ [a]))]
    constructor
    · rintro ⟨h1, h2⟩
      refine ⟨h2, .singleton _, ?_⟩
      intro x hx y hy
      simp only [← List.cons_append, List.getLast?_append, List.getLast?_singleton, Option.mem_def,
        Option.some_or, Option.some.injEq, List.head?_cons] at hx hy
      subst hx hy; exact h1
    · rintro ⟨h1, -, h2⟩
      exact ⟨h2 a (by rw [← List.cons_append, List.getLast?_append]; rfl) b (by simp), h1⟩

theorem ring_rotate {c : Coll} (A : List Nat) : ∀ B, Ring c (A ++ B) ↔ Ring c (B ++ A) := by
  induction A with
  | nil => intro B; simp
  | cons a A ih =>
    intro B
    rw [List.cons_append, ring_rotate1, List.append_assoc, ih, List.append_assoc]
    simp

/-- Changing pointers outside the sequence keeps the ring. -/
theorem ring_congr {c d : Coll} {L : List Nat} (h : Ring c L)
    (hn : ∀ x ∈ L, d.next x = c.next x) (hp : ∀ x ∈ L, d.prev x = c.prev x) : Ring d L := by
  cases L with
  | nil => trivial
  | cons a t =>
    rw [ring_iff] at *
    have : ∀ l : List Nat, (∀ x ∈ l, x ∈ a :: t) → List.IsChain (R c) l → List.IsChain (R d) l := by
      intro l
      induction l with
      | nil => intros; exact .nil
      | cons x l ih =>
        intro hx hc
        cases l with
        | nil => exact .singleton _
        | cons y l =>
          rw [List.isChain_cons_cons] at *
          refine ⟨⟨?_, ?_⟩, ih (fun z hz => hx z (by simp [List.mem_cons.1 hz])) hc.2⟩
          · rw [hn x (hx x (by simp))]; exact hc.1.1
          · rw [hp y (hx y (by simp))]; exact hc.1.2
    refine this _ ?_ h
    intro x hx
    simp only [List.mem_cons, List.mem_append, List.not_mem_nil, or_false] at *
    tauto

/-- Neighbours in a ring starting at `q`: the predecessor of the head is the last node. -/
theorem ring_last {c : Coll} {T p} (h : Ring c (T ++ [p])) (q : Nat) (hq : (T ++ [p]).head? = some q) :
    c.prev q = p ∧ c.next p = q := by
  rw [← ring_rotate [p] T] at h
  rw [List.singleton_append, ring_iff] at h
  cases T with
  | nil => simp at hq; subst hq; have := List.isChain_cons_cons.1 h; exact ⟨this.1.2, this.1.1⟩
  | cons a T =>
    simp at hq; subst hq
    rw [List.cons_append, List.isChain_cons_cons] at h
    exact ⟨h.1.2, h.1.1⟩

/-- A ring is its path plus the link from the last node to the head. -/
theorem ring_snoc {c : Coll} {q T p} (hl : (q :: T).getLast? = some p) :
    Ring c (q :: T) ↔ List.IsChain (R c) (q :: T) ∧ R c p q := by
  rw [ring_iff, ← List.cons_append, List.isChain_append]
  constructor
  · rintro ⟨h1, -, h2⟩; exact ⟨h1, h2 p hl q (by simp)⟩
  · rintro ⟨h1, h2⟩
    refine ⟨h1, .singleton _, ?_⟩
    intro x hx y hy
    rw [hl] at hx
    simp at hx hy; subst hx hy; exact h2

theorem chain_congr {c d : Coll} : ∀ {l : List Nat}, List.IsChain (R c) l → l.Nodup →
    (∀ x ∈ l, some x ≠ l.getLast? → d.next x = c.next x) →
    (∀ x ∈ l, some x ≠ l.head? → d.prev x = c.prev x) → List.IsChain (R d) l
  | [], _, _, _, _ => .nil
  | [_], _, _, _, _ => .singleton _
  | x :: y :: l, h, hnd, hn, hp => by
    rw [List.isChain_cons_cons] at *
    have hnd' := List.nodup_cons.1 hnd
    have hxy : x ≠ y := fun e => hnd'.1 (e ▸ List.mem_cons_self ..)
    refine ⟨⟨?_, ?_⟩, chain_congr h.2 hnd'.2 (fun z hz hl => hn z (List.mem_cons_of_mem _ hz) ?_)
      (fun z hz hh => hp z (List.mem_cons_of_mem _ hz) ?_)⟩
    · rw [hn x (by simp) ?_]; exact h.1.1
      intro e
      rw [List.getLast?_cons_cons] at e
      exact hnd'.1 (List.mem_of_getLast? e.symm)
    · rw [hp y (by simp) (by simpa using hxy.symm)]; exact h.1.2
    · rw [List.getLast?_cons_cons]; exact hl
    · rintro e
      simp only [List.head?_cons, Option.some.injEq] at e
      exact hnd'.1 (e ▸ hz)

section
variable {c : Coll}

theorem wrNext_eq {i x : Nat} (h : i < c.N) :
    wrNext c i x = some { c with next := fun j => if j = i then x else c.next j } := if_pos h
theorem wrPrev_eq {i x : Nat} (h : i < c.N) :
    wrPrev c i x = some { c with prev := fun j => if j = i then x else c.prev j } := if_pos h
theorem rdNext_eq {i : Nat} (h : i < c.N) : rdNext c i = some (c.next i) := if_pos h
theorem rdPrev_eq {i : Nat} (h : i < c.N) : rdPrev c i = some (c.prev i) := if_pos h

/-- Both ways of putting `x` before `q` in a ring starting at `q`. -/
theorem ring_insert {d : Coll} {q T p x} (h : Ring c (q :: T)) (hl : (q :: T).getLast? = some p)
    (hnd : (q :: T).Nodup) (hx : x ∉ q :: T)
    (hn : ∀ j, d.next j = if j = p then x else if j = x then q else c.next j)
    (hp : ∀ j, d.prev j = if j = q then x else if j = x then p else c.prev j) :
    Ring d (q :: (T ++ [x])) := by
  have hpm : p ∈ q :: T := List.mem_of_getLast? hl
  have hxp : x ≠ p := fun e => hx (e ▸ hpm)
  have hxq : x ≠ q := fun e => hx (by simp [e])
  rw [ring_snoc (p := x) (by rw [← List.cons_append, List.getLast?_append]; rfl)]
  obtain ⟨h1, h2⟩ := (ring_snoc hl).1 h
  refine ⟨?_, by rw [hn, if_neg hxp, if_pos rfl], by rw [hp, if_pos rfl]⟩
  rw [← List.cons_append, List.isChain_append]
  refine ⟨chain_congr h1 hnd ?_ ?_, .singleton _, ?_⟩
  · intro y hy hyl
    rw [hn, if_neg (fun e => hyl (by rw [hl, e])), if_neg (fun (e : y = x) => hx (e ▸ hy))]
  · intro y hy hyh
    rw [hp, if_neg (fun e => hyh (by simp [e])), if_neg (fun (e : y = x) => hx (e ▸ hy))]
  · intro a ha b hb
    rw [hl] at ha
    simp at ha hb
    subst ha hb
    exact ⟨by rw [hn, if_pos rfl], by rw [hp, if_neg hxq, if_pos rfl]⟩

theorem linkBefore_ok {q T x} (h : Ring c (q :: T)) (hnd : (q :: T).Nodup) (hx : x ∉ q :: T)
    (hb : ∀ y ∈ q :: T, y < c.N) (hxb : x < c.N) :
    ∃ d, linkBefore c q x = some d ∧ d.N = c.N ∧ Ring d (q :: (T ++ [x])) ∧ d.prev q = x ∧
      (∀ y, y ∉ q :: T → y ≠ x → d.next y = c.next y ∧ d.prev y = c.prev y) := by
  obtain ⟨p, hl⟩ : ∃ p, (q :: T).getLast? = some p := ⟨_, List.getLast?_eq_getLast_of_ne_nil (by simp)⟩
  have hpm : p ∈ q :: T := List.mem_of_getLast? hl
  obtain ⟨h1, h2⟩ := (ring_snoc hl).1 h
  have hqb := hb q (by simp)
  have hpb := hb p hpm
  have hxq : q ≠ x := fun e => hx (by simp [e])
  have hxp : x ≠ p := fun e => hx (e ▸ hpm)
  refine ⟨⟨c.N, fun j => if j = q then x else if j = x then p else c.prev j,
    fun j => if j = p then x else if j = x then q else c.next j⟩, ?_, rfl, ?_, by simp, ?_⟩
  · unfold linkBefore
    simp only [wrNext_eq hxb, Option.bind_eq_bind, Option.bind_some]
    simp only [rdPrev, wrPrev, wrNext, hqb, hxb, if_true, Option.bind_some, h2.2, hpb]
  · exact ring_insert h hl hnd hx (fun _ => rfl) (fun _ => rfl)
  · intro y hy hyx
    have e1 : y ≠ q := fun e => hy (by simp [e])
    have e2 : y ≠ p := fun e => hy (e ▸ hpm)
    simp [e1, e2, hyx]

theorem insertAfter_ok {a T x} (h : Ring c (a :: T)) (hnd : (a :: T).Nodup) (hx : x ∉ a :: T)
    (hb : ∀ y ∈ a :: T, y < c.N) (hxb : x < c.N) :
    ∃ d, insertAfter c a x = some d ∧ d.N = c.N ∧ Ring d (a :: x :: T) ∧
      (∀ y, y ∉ a :: T → y ≠ x → d.next y = c.next y ∧ d.prev y = c.prev y) := by
  -- as an insertion before the successor of `a`
  obtain ⟨q, S, hqS, hrot⟩ : ∃ q S, q :: S = T ++ [a] ∧ c.next a = q := by
    cases T with
    | nil =>
      have := (ring_snoc (c := c) (q := a) (T := []) (p := a) rfl).1 h
      exact ⟨a, [], rfl, this.2.1⟩
    | cons b T =>
      rw [ring_iff, List.cons_append, List.isChain_cons_cons] at h
      exact ⟨b, T ++ [a], rfl, h.1.1⟩
  have hr : Ring c (q :: S) := by rw [hqS]; exact ring_rotate1.1 h
  have hlast : (q :: S).getLast? = some a := by rw [hqS]; simp
  have hperm : ∀ y, y ∈ q :: S ↔ y ∈ a :: T := by intro y; rw [hqS]; simp [or_comm]
  have hnd' : (q :: S).Nodup := by
    rw [hqS]; exact (List.perm_append_comm (l₁ := T) (l₂ := [a])).nodup_iff.2 hnd
  have hqm : q ∈ a :: T := (hperm q).1 (by simp)
  have hab := hb a (by simp)
  have hqb := hb q hqm
  have hax : a ≠ x := fun e => hx (by simp [e])
  have hqx : x ≠ q := fun e => hx (e ▸ hqm)
  refine ⟨⟨c.N, fun j => if j = q then x else if j = x then a else c.prev j,
    fun j => if j = a then x else if j = x then q else c.next j⟩, ?_, rfl, ?_, ?_⟩
  · unfold insertAfter
    simp only [wrPrev_eq hxb, Option.bind_eq_bind, Option.bind_some]
    simp only [rdNext, wrPrev, wrNext, hab, hxb, if_true, Option.bind_some, hrot, hax, if_false, hqb]
  · have := ring_insert (d := ⟨c.N, fun j => if j = q then x else if j = x then a else c.prev j,
      fun j => if j = a then x else if j = x then q else c.next j⟩) hr hlast hnd'
      (fun hm => hx ((hperm x).1 hm)) (fun _ => rfl) (fun _ => rfl)
    rw [← List.cons_append, hqS] at this
    have h2 := (ring_rotate T [a, x]).1 (by simpa using this)
    simpa using h2
  · intro y hy hyx
    have e1 : y ≠ q := fun e => hy (e ▸ hqm)
    have e2 : y ≠ a := fun e => hy (by simp [e])
    simp [e1, e2, hyx]

theorem unlink_ok {x T} (h : Ring c (x :: T)) (hT : T ≠ []) (hnd : (x :: T).Nodup)
    (hb : ∀ y ∈ x :: T, y < c.N) :
    ∃ d, unlink c x = some d ∧ d.N = c.N ∧ Ring d T ∧ d.next x = c.next x ∧
      some (c.next x) = T.head? ∧
      (∀ y, y ∉ T → d.next y = c.next y ∧ d.prev y = c.prev y) := by
  obtain ⟨n, S, rfl⟩ := List.exists_cons_of_ne_nil hT
  obtain ⟨p, hl⟩ : ∃ p, (n :: S).getLast? = some p := ⟨_, List.getLast?_eq_getLast_of_ne_nil (by simp)⟩
  have hl' : (x :: n :: S).getLast? = some p := by rw [List.getLast?_cons_cons, hl]
  obtain ⟨h1, h2⟩ := (ring_snoc hl').1 h
  rw [List.isChain_cons_cons] at h1
  have hpm : p ∈ n :: S := List.mem_of_getLast? hl
  have hnd' := List.nodup_cons.1 hnd
  have hxp : x ≠ p := fun e => hnd'.1 (e ▸ hpm)
  have hxn : x ≠ n := fun e => hnd'.1 (by simp [e])
  have hxb := hb x (by simp)
  have hpb := hb p (List.mem_cons_of_mem _ hpm)
  have hnb := hb n (by simp)
  refine ⟨⟨c.N, fun j => if j = n then p else c.prev j, fun j => if j = p then n else c.next j⟩,
    ?_, rfl, ?_, by simp [hxp], by simp [h1.1.1], ?_⟩
  · unfold unlink
    simp only [rdPrev, rdNext, hxb, if_true, Option.bind_eq_bind, Option.bind_some, h2.2, h1.1.1,
      wrNext, wrPrev, hpb, hxp, if_false, hnb]
  · rw [ring_snoc hl]
    refine ⟨chain_congr h1.2 hnd'.2 ?_ ?_, ?_, ?_⟩
    · intro y hy hyl; simp only; rw [if_neg fun e => hyl (by rw [hl, e])]
    · intro y hy hyh; simp only; rw [if_neg fun e => hyh (by simp [e])]
    · simp
    · simp
  · intro y hy
    have e1 : y ≠ n := fun e => hy (by simp [e])
    have e2 : y ≠ p := fun e => hy (e ▸ hpm)
    simp [e1, e2]

/-- Forward iteration. -/
theorem forward_ok {h L} (hr : Ring c (h :: L)) (hb : ∀ y ∈ h :: L, 0 < y ∧ y < c.N)
    (hnd : (h :: L).Nodup) : ∀ (B A : List Nat) (x : Nat) (f : Nat), h :: L = A ++ x :: B →
      B.length < f → forward c h f x = some (x :: B) := by
  intro B
  induction B with
  | nil =>
    intro A x f hA hf
    obtain ⟨f, rfl⟩ : ∃ f', f = f' + 1 := ⟨f - 1, by simp at hf; omega⟩
    have hx : x ∈ h :: L := by rw [hA]; simp
    have h0 := hb x hx
    have hn : c.next x = h := by
      have hl : (h :: L).getLast? = some x := by rw [hA]; simp
      exact ((ring_snoc hl).1 hr).2.1
    simp only [forward, if_neg (show x ≠ 0 by omega), getNext, rdNext_eq h0.2, Option.bind_eq_bind,
      Option.bind_some, hn, if_true]
    cases f <;> simp [forward]
  | cons y B ih =>
    intro A x f hA hf
    obtain ⟨f, rfl⟩ : ∃ f', f = f' + 1 := ⟨f - 1, by simp at hf; omega⟩
    have hx : x ∈ h :: L := by rw [hA]; simp
    have h0 := hb x hx
    have hn : c.next x = y := by
      have h1 := ((ring_snoc (List.getLast?_eq_getLast_of_ne_nil (l := h :: L) (by simp))).1 hr).1
      rw [hA, List.isChain_append] at h1
      exact (List.isChain_cons_cons.1 h1.2.1).1.1
    have hyh : y ≠ h := by
      intro e
      rw [hA] at hnd
      cases A with
      | nil => simp at hA hnd; rw [← hA.1] at hnd; exact hnd.1.1 e.symm
      | cons a A =>
        simp at hA hnd
        have := hA.1
        rw [← this] at hnd
        tauto
    simp only [forward, if_neg (show x ≠ 0 by omega), getNext, rdNext_eq h0.2, Option.bind_eq_bind,
      Option.bind_some, hn, if_neg hyh]
    rw [ih (A ++ [x]) y f (by simpa using hA) (by simp at hf; omega)]
    rfl

/-- Backward iteration. -/
theorem backward_ok {h L} (hr : Ring c (h :: L)) (hb : ∀ y ∈ h :: L, 0 < y ∧ y < c.N)
    (hnd : (h :: L).Nodup) : ∀ (A : List Nat) (x : Nat) (B : List Nat) (f : Nat),
      h :: L = A.reverse ++ x :: B → A.length < f → backward c h f x = some (x :: A) := by
  intro A
  induction A with
  | nil =>
    intro x B f hA hf
    obtain ⟨f, rfl⟩ : ∃ f', f = f' + 1 := ⟨f - 1, by simp at hf; omega⟩
    simp at hA
    have h0 := hb x (by simp [hA.1])
    simp only [backward, if_neg (show x ≠ 0 by omega), getPrev, hA.1, if_true,
      Option.bind_eq_bind, Option.bind_some]
    cases f <;> simp [backward]
  | cons y A ih =>
    intro x B f hA hf
    obtain ⟨f, rfl⟩ : ∃ f', f = f' + 1 := ⟨f - 1, by simp at hf; omega⟩
    have hx : x ∈ h :: L := by rw [hA]; simp
    have h0 := hb x hx
    have hA' : h :: L = A.reverse ++ y :: x :: B := by rw [hA]; simp
    have hn : c.prev x = y := by
      have h1 := ((ring_snoc (List.getLast?_eq_getLast_of_ne_nil (l := h :: L) (by simp))).1 hr).1
      rw [hA', List.isChain_append] at h1
      exact (List.isChain_cons_cons.1 h1.2.1).1.2
    have hxh : x ≠ h := by
      intro e
      rw [hA'] at hnd
      cases hR : A.reverse with
      | nil => rw [hR] at hA' hnd; simp at hA' hnd; rw [← hA'.1] at hnd; tauto
      | cons a R =>
        rw [hR] at hA' hnd
        simp at hA' hnd
        rw [← hA'.1] at hnd
        tauto
    simp only [backward, if_neg (show x ≠ 0 by omega), getPrev, hxh, if_false, rdPrev_eq h0.2,
      Option.bind_eq_bind, Option.bind_some, hn]
    rw [ih y (x :: B) f hA' (by simp at hf; omega)]
    rfl

end
end Verif.LC
