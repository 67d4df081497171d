import Verif.Util.ListCollLemmas
import Mathlib.Logic.Function.Basic
import Mathlib.Data.List.Perm.Subperm

/-
Property theorem C45: list collections behave like lists.
-/
namespace Verif.Props
open Verif.LC

/-! ## Specification: several disjoint sequences, held in variables -/

/-- `x` is a node of the collection that is in none of the lists. -/
def FreshNode (n : Nat) (L : Nat → List Nat) (x : Nat) : Prop := 0 < x ∧ x < n ∧ ∀ k, x ∉ L k

/-- What an operation does to the sequences. A node inserted before the head without changing
the head variable is last, as seen from the head. -/
inductive SpecOp (n : Nat) : (Nat → List Nat) → Op → (Nat → List Nat) → Prop
  | append {L k x} : FreshNode n L x → SpecOp n L (.append k x) (Function.update L k (L k ++ [x]))
  | prepend {L k x} : FreshNode n L x → SpecOp n L (.prepend k x) (Function.update L k (x :: L k))
  | insertAfter {L k a x A B} : FreshNode n L x → L k = A ++ a :: B →
      SpecOp n L (.insertAfter a x) (Function.update L k (A ++ a :: x :: B))
  | insertBefore {L k a x A B} : FreshNode n L x → L k = A ++ a :: B → A ≠ [] →
      SpecOp n L (.insertBefore a x) (Function.update L k (A ++ x :: a :: B))
  | insertBeforeHead {L k a x B} : FreshNode n L x → L k = a :: B →
      SpecOp n L (.insertBefore a x) (Function.update L k (a :: B ++ [x]))
  | delete {L k x A B} : L k = A ++ x :: B →
      SpecOp n L (.delete k x) (Function.update L k (A ++ B))

/-- A history of such operations. -/
inductive SpecHistory (n : Nat) : (Nat → List Nat) → List Op → (Nat → List Nat) → Prop
  | nil {L} : SpecHistory n L [] L
  | cons {L L' L'' o os} : SpecOp n L o L' → SpecHistory n L' os L'' → SpecHistory n L (o :: os) L''

/-! ## Proof -/

/-- Representation of the sequences by the collection. -/
structure Holds (s : St) (L : Nat → List Nat) : Prop where
  ring : ∀ k, Ring s.coll (L k)
  nodup : ∀ k, (L k).Nodup
  disj : ∀ j k, j ≠ k → ∀ x ∈ L j, x ∉ L k
  bound : ∀ k, ∀ x ∈ L k, 0 < x ∧ x < s.coll.N
  head : ∀ k, s.heads k = (L k).headD 0
  zero : s.coll.prev 0 = 0
  pos : 0 < s.coll.N

theorem Holds.mk' {s s' : St} {L : Nat → List Nat} (h : Holds s L) {k : Nat} {M : List Nat}
    (hN : s'.coll.N = s.coll.N) (hr : Ring s'.coll M) (hnd : M.Nodup)
    (hb : ∀ x ∈ M, 0 < x ∧ x < s.coll.N)
    (hM : ∀ x ∈ M, x ∈ L k ∨ ∀ j, x ∉ L j)
    (hh : s'.heads = Function.update s.heads k (M.headD 0))
    (hf : ∀ y, y ∉ L k → y ∉ M → s'.coll.next y = s.coll.next y ∧ s'.coll.prev y = s.coll.prev y) :
    Holds s' (Function.update L k M) := by
  have hother : ∀ j, j ≠ k → ∀ x ∈ L j, x ∉ L k ∧ x ∉ M := by
    intro j hj x hx
    have h1 := h.disj j k hj x hx
    refine ⟨h1, fun hm => ?_⟩
    rcases hM x hm with h2 | h2
    · exact h1 h2
    · exact h2 j hx
  have h0 : (0 : Nat) ∉ L k ∧ (0 : Nat) ∉ M :=
    ⟨fun h1 => absurd (h.bound k 0 h1).1 (by omega), fun h1 => absurd (hb 0 h1).1 (by omega)⟩
  refine ⟨fun j => ?_, fun j => ?_, fun i j hij x hx => ?_, fun j x hx => ?_, fun j => ?_, ?_, ?_⟩
  · by_cases hj : j = k
    · subst hj; simpa using hr
    · rw [Function.update_of_ne hj]
      refine ring_congr (h.ring j) (fun x hx => ?_) (fun x hx => ?_)
      · exact (hf x (hother j hj x hx).1 (hother j hj x hx).2).1
      · exact (hf x (hother j hj x hx).1 (hother j hj x hx).2).2
  · by_cases hj : j = k
    · subst hj; simpa using hnd
    · rw [Function.update_of_ne hj]; exact h.nodup j
  · by_cases hi : i = k
    · subst hi
      rw [Function.update_self] at hx
      rw [Function.update_of_ne (Ne.symm hij)]
      intro hm
      exact (hother j (Ne.symm hij) x hm).2 hx
    · rw [Function.update_of_ne hi] at hx
      by_cases hj : j = k
      · subst hj; rw [Function.update_self]; exact (hother i hi x hx).2
      · rw [Function.update_of_ne hj]; exact h.disj i j hij x hx
  · rw [hN]
    by_cases hj : j = k
    · subst hj; rw [Function.update_self] at hx; exact hb x hx
    · rw [Function.update_of_ne hj] at hx; exact h.bound j x hx
  · rw [hh]
    by_cases hj : j = k
    · subst hj; simp
    · rw [Function.update_of_ne hj, Function.update_of_ne hj]; exact h.head j
  · rw [(hf 0 h0.1 h0.2).2]; exact h.zero
  · rw [hN]; exact h.pos

theorem single_ok {c : Coll} {x : Nat} (hx : x < c.N) :
    ∃ d, single c x = some d ∧ d.N = c.N ∧ Ring d [x] ∧
      ∀ y, y ≠ x → d.next y = c.next y ∧ d.prev y = c.prev y := by
  refine ⟨⟨c.N, fun j => if j = x then x else c.prev j, fun j => if j = x then x else c.next j⟩,
    by simp [single, wrNext, wrPrev, hx], rfl, ?_, ?_⟩
  · rw [ring_snoc (p := x) rfl]; exact ⟨.singleton _, by simp, by simp⟩
  · intro y hy; simp [hy]

theorem setHead_heads (s : St) (k h : Nat) (c : Coll) :
    (setHead s k h c).heads = Function.update s.heads k h := by
  funext j
  by_cases hj : j = k
  · subst hj; simp [setHead]
  · simp [setHead, hj]

theorem holds_step {s : St} {L L' : Nat → List Nat} {o : Op} (h : Holds s L)
    (ho : SpecOp s.coll.N L o L') :
    ∃ s', step s o = some s' ∧ Holds s' L' ∧ s'.coll.N = s.coll.N := by
  have hrep : ∀ k q T, L k = q :: T → q ≠ 0 ∧ (∀ y ∈ q :: T, y < s.coll.N) ∧ s.heads k = q := by
    intro k q T hk
    have hb := h.bound k
    rw [hk] at hb
    exact ⟨by have := hb q (by simp); omega, fun y hy => (hb y hy).2, by rw [h.head, hk]; rfl⟩
  cases ho with
  | @append k x hx =>
    obtain ⟨hx0, hxn, hxL⟩ := hx
    cases hk : L k with
    | nil =>
      have hh : s.heads k = 0 := by rw [h.head, hk]; rfl
      obtain ⟨d, h1, h2, h3, h4⟩ := single_ok (c := s.coll) hxn
      refine ⟨setHead s k x d, by simp [step, LC.append, hh, h1], ?_, h2⟩
      exact h.mk' (s' := setHead s k x d) h2 h3 (by simp) (by simp; omega)
        (by intro y hy; simp at hy; subst hy; exact .inr hxL) (setHead_heads ..)
        (fun y _ hy => h4 y (by simpa using hy))
    | cons q T =>
      obtain ⟨hq0, hqb, hh⟩ := hrep k q T hk
      have hr := h.ring k
      have hnd := h.nodup k
      have hxk := hxL k
      rw [hk] at hr hnd hxk
      obtain ⟨d, h1, h2, h3, h4, h5⟩ := linkBefore_ok hr hnd hxk hqb hxn
      refine ⟨setHead s k q d, by simp [step, LC.append, hh, hq0, h1], ?_, h2⟩
      refine h.mk' (s' := setHead s k q d) h2 (by simpa [setHead] using h3) ?_ ?_ ?_ (setHead_heads ..) ?_
      · exact List.nodup_append.2 ⟨hnd, by simp, fun b hb y hy e => by
          simp at hy; subst hy; exact hxk (e ▸ hb)⟩
      · intro y hy
        rcases List.mem_append.1 hy with hy | hy
        · exact h.bound k y (by rw [hk]; exact hy)
        · simp at hy; omega
      · intro y hy
        rcases List.mem_append.1 hy with hy | hy
        · exact .inl (by rw [hk]; exact hy)
        · simp at hy; subst hy; exact .inr hxL
      · intro y hy1 hy2
        rw [hk] at hy1
        exact h5 y hy1 (by rintro rfl; exact hy2 (by simp))
  | @prepend k x hx =>
    obtain ⟨hx0, hxn, hxL⟩ := hx
    cases hk : L k with
    | nil =>
      have hh : s.heads k = 0 := by rw [h.head, hk]; rfl
      obtain ⟨d, h1, h2, h3, h4⟩ := single_ok (c := s.coll) hxn
      refine ⟨setHead s k x d, by simp [step, LC.prepend, hh, h1], ?_, h2⟩
      exact h.mk' (s' := setHead s k x d) h2 h3 (by simp) (by simp; omega)
        (by intro y hy; simp at hy; subst hy; exact .inr hxL) (setHead_heads ..)
        (fun y _ hy => h4 y (by simpa using hy))
    | cons q T =>
      obtain ⟨hq0, hqb, hh⟩ := hrep k q T hk
      have hr := h.ring k
      have hnd := h.nodup k
      have hxk := hxL k
      rw [hk] at hr hnd hxk
      obtain ⟨d, h1, h2, h3, h4, h5⟩ := linkBefore_ok hr hnd hxk hqb hxn
      have hq : rdPrev d q = some x := by rw [rdPrev_eq (by rw [h2]; exact hqb q (by simp)), h4]
      refine ⟨setHead s k x d, by simp [step, LC.prepend, hh, hq0, h1, hq], ?_, h2⟩
      refine h.mk' (s' := setHead s k x d) h2 ?_ ?_ ?_ ?_ (setHead_heads ..) ?_
      · have := (ring_rotate (q :: T) [x]).1 (by simpa using h3)
        simpa [setHead] using this
      · exact List.nodup_cons.2 ⟨hxk, hnd⟩
      · intro y hy
        rcases List.mem_cons.1 hy with hy | hy
        · omega
        · exact h.bound k y (by rw [hk]; exact hy)
      · intro y hy
        rcases List.mem_cons.1 hy with hy | hy
        · subst hy; exact .inr hxL
        · exact .inl (by rw [hk]; exact hy)
      · intro y hy1 hy2
        rw [hk] at hy1
        exact h5 y hy1 (by rintro rfl; exact hy2 (by simp))
  | @insertAfter k a x A B hx hk =>
    obtain ⟨hx0, hxn, hxL⟩ := hx
    have hr := h.ring k
    have hnd := h.nodup k
    have hxk := hxL k
    have hb := h.bound k
    have hperm : ∀ y, y ∈ L k ↔ y ∈ a :: (B ++ A) := by intro y; rw [hk]; simp; tauto
    have hr' : Ring s.coll (a :: (B ++ A)) := by
      rw [hk, ring_rotate] at hr; simpa using hr
    have hnd' : (a :: (B ++ A)).Nodup := by
      rw [hk] at hnd
      exact (List.perm_append_comm (l₁ := A) (l₂ := a :: B)).nodup_iff.1 hnd
    obtain ⟨d, h1, h2, h3, h4⟩ := insertAfter_ok hr' hnd' (fun hm => hxk ((hperm x).2 hm))
      (fun y hy => (hb y ((hperm y).2 hy)).2) hxn
    refine ⟨{ s with coll := d }, by simp [step, h1], ?_, h2⟩
    have hmem : ∀ y, y ∈ A ++ a :: x :: B ↔ y ∈ L k ∨ y = x := by intro y; rw [hk]; simp; tauto
    refine h.mk' (s' := { s with coll := d }) h2 ?_ ?_ ?_ ?_ ?_ ?_
    · have := (ring_rotate (a :: x :: B) A).1 (by simpa using h3)
      simpa using this
    · have : (x :: (A ++ a :: B)).Nodup := List.nodup_cons.2 ⟨by rw [← hk]; exact hxk, by rw [← hk]; exact hnd⟩
      refine (List.Perm.nodup_iff ?_).1 this
      refine List.perm_middle.symm.trans ?_
      exact ((List.Perm.swap _ _ _).append_left A)
    · intro y hy
      rcases (hmem y).1 hy with hy | rfl
      · exact hb y hy
      · exact ⟨hx0, hxn⟩
    · intro y hy
      rcases (hmem y).1 hy with hy | rfl
      · exact .inl hy
      · exact .inr hxL
    · funext j
      by_cases hj : j = k
      · subst hj
        rw [Function.update_self, h.head, hk]
        cases A <;> rfl
      · rw [Function.update_of_ne hj]
    · intro y hy1 hy2
      exact h4 y (fun hm => hy1 ((hperm y).2 hm)) (by rintro rfl; exact hy2 ((hmem _).2 (.inr rfl)))
  | @insertBefore k a x A B hx hk hA =>
    obtain ⟨hx0, hxn, hxL⟩ := hx
    have hr := h.ring k
    have hnd := h.nodup k
    have hxk := hxL k
    have hb := h.bound k
    have hperm : ∀ y, y ∈ L k ↔ y ∈ a :: (B ++ A) := by intro y; rw [hk]; simp; tauto
    have hr' : Ring s.coll (a :: (B ++ A)) := by
      rw [hk, ring_rotate] at hr; simpa using hr
    have hnd' : (a :: (B ++ A)).Nodup := by
      rw [hk] at hnd
      exact (List.perm_append_comm (l₁ := A) (l₂ := a :: B)).nodup_iff.1 hnd
    have ha0 : a ≠ 0 := by have := hb a ((hperm a).2 (by simp)); omega
    obtain ⟨d, h1, h2, h3, h3', h4⟩ := linkBefore_ok hr' hnd' (fun hm => hxk ((hperm x).2 hm))
      (fun y hy => (hb y ((hperm y).2 hy)).2) hxn
    have hab : a < s.coll.N := (hb a ((hperm a).2 (by simp))).2
    refine ⟨{ s with coll := d }, by
      simp [step, LC.insertBefore, LC.prepend, ha0, h1, rdPrev, h2, hab], ?_, h2⟩
    have hmem : ∀ y, y ∈ A ++ x :: a :: B ↔ y ∈ L k ∨ y = x := by intro y; rw [hk]; simp; tauto
    refine h.mk' (s' := { s with coll := d }) h2 ?_ ?_ ?_ ?_ ?_ ?_
    · have := (ring_rotate (a :: B) (A ++ [x])).1 (by simpa using h3)
      simpa using this
    · have : (x :: (A ++ a :: B)).Nodup := List.nodup_cons.2 ⟨by rw [← hk]; exact hxk, by rw [← hk]; exact hnd⟩
      exact (List.Perm.nodup_iff List.perm_middle.symm).1 this
    · intro y hy
      rcases (hmem y).1 hy with hy | rfl
      · exact hb y hy
      · exact ⟨hx0, hxn⟩
    · intro y hy
      rcases (hmem y).1 hy with hy | rfl
      · exact .inl hy
      · exact .inr hxL
    · funext j
      by_cases hj : j = k
      · subst hj
        rw [Function.update_self, h.head, hk]
        cases A with
        | nil => exact absurd rfl hA
        | cons _ _ => rfl
      · rw [Function.update_of_ne hj]
    · intro y hy1 hy2
      exact h4 y (fun hm => hy1 ((hperm y).2 hm)) (by rintro rfl; exact hy2 ((hmem _).2 (.inr rfl)))
  | @insertBeforeHead k a x B hx hk =>
    obtain ⟨hx0, hxn, hxL⟩ := hx
    obtain ⟨hq0, hqb, hh⟩ := hrep k a B hk
    have hr := h.ring k
    have hnd := h.nodup k
    have hxk := hxL k
    rw [hk] at hr hnd hxk
    obtain ⟨d, h1, h2, h3, h4, h5⟩ := linkBefore_ok hr hnd hxk hqb hxn
    have hab : a < s.coll.N := hqb a (by simp)
    refine ⟨{ s with coll := d }, by
      simp [step, LC.insertBefore, LC.prepend, hq0, h1, rdPrev, h2, hab], ?_, h2⟩
    refine h.mk' (s' := { s with coll := d }) h2 (by simpa using h3) ?_ ?_ ?_ ?_ ?_
    · exact List.nodup_append.2 ⟨hnd, by simp, fun b hb y hy e => by
        simp at hy; subst hy; exact hxk (e ▸ hb)⟩
    · intro y hy
      rcases List.mem_append.1 hy with hy | hy
      · exact h.bound k y (by rw [hk]; exact hy)
      · simp at hy; omega
    · intro y hy
      rcases List.mem_append.1 hy with hy | hy
      · exact .inl (by rw [hk]; exact hy)
      · simp at hy; subst hy; exact .inr hxL
    · funext j
      by_cases hj : j = k
      · subst hj
        rw [Function.update_self, h.head, hk]; rfl
      · rw [Function.update_of_ne hj]
    · intro y hy1 hy2
      rw [hk] at hy1
      exact h5 y hy1 (by rintro rfl; exact hy2 (by simp))
  | @delete k x A B hk =>
    have hr := h.ring k
    have hnd := h.nodup k
    have hb := h.bound k
    have hh := h.head k
    have hperm : ∀ y, y ∈ L k ↔ y ∈ x :: (B ++ A) := by intro y; rw [hk]; simp; tauto
    have hr' : Ring s.coll (x :: (B ++ A)) := by
      have := hr; rw [hk, ring_rotate] at this; simpa using this
    have hnd' : (x :: (B ++ A)).Nodup := by
      rw [hk] at hnd
      exact (List.perm_append_comm (l₁ := A) (l₂ := x :: B)).nodup_iff.1 hnd
    have hxm := (hperm x).2 (by simp)
    have hxb := (hb x hxm).2
    by_cases hBA : B ++ A = []
    · obtain ⟨rfl, rfl⟩ := List.append_eq_nil_iff.1 hBA
      simp only [List.nil_append] at hk
      rw [hk] at hh
      simp only [List.headD_cons] at hh
      have hnx : s.coll.next x = x := ((ring_snoc (p := x) rfl).1 hr').2.1
      refine ⟨setHead s k 0 ⟨s.coll.N, fun j => if j = x then 0 else s.coll.prev j,
        fun j => if j = x then 0 else s.coll.next j⟩, ?_, ?_, rfl⟩
      · simp [step, LC.delete, hh, rdNext, hxb, hnx, wrNext, wrPrev]
      · refine h.mk' (s' := setHead s k 0 _) rfl trivial (by simp) (by simp) (by simp)
          (setHead_heads ..) ?_
        intro y hy1 _
        rw [hk] at hy1
        simp at hy1
        simp [setHead, hy1]
    · obtain ⟨d, h1, h2, h3, h4, h5, h6⟩ := unlink_ok hr' hBA hnd'
        (fun y hy => (hb y ((hperm y).2 hy)).2)
      -- the head, and that it is not alone
      obtain ⟨q, T, hqT⟩ : ∃ q T, L k = q :: T := by
        cases hc : L k with
        | nil => rw [hc] at hk; simp at hk
        | cons q T => exact ⟨q, T, rfl⟩
      rw [hqT] at hh
      simp only [List.headD_cons] at hh
      have hqb : q < s.coll.N := (hb q (by rw [hqT]; simp)).2
      have hTne : T ≠ [] := by
        rintro rfl
        rw [hqT] at hk
        have := congrArg List.length hk
        simp at this
        exact hBA (by
          rw [List.append_eq_nil_iff]
          constructor <;> apply List.length_eq_zero_iff.1 <;> omega)
      have hqn : s.coll.next q ≠ q := by
        obtain ⟨b, T', rfl⟩ := List.exists_cons_of_ne_nil hTne
        rw [hqT] at hr hnd
        rw [ring_iff, List.cons_append, List.isChain_cons_cons] at hr
        rw [hr.1.1]
        intro e
        subst e; simp at hnd
      have hmem : ∀ y, y ∈ A ++ B ↔ y ∈ B ++ A := by intro y; simp; tauto
      have hrd : rdNext d x = some (s.coll.next x) := by rw [rdNext_eq (by rw [h2]; exact hxb), h4]
      refine ⟨setHead s k (if q = x then s.coll.next x else q) d, ?_, ?_, h2⟩
      · simp [step, LC.delete, hh, rdNext_eq hqb, hqn, h1, hrd]
      · refine h.mk' (s' := setHead s k _ d) h2 ?_ ?_ ?_ ?_ ?_ ?_
        · exact (ring_rotate B A).1 h3
        · exact (List.perm_append_comm (l₁ := B) (l₂ := A)).nodup_iff.1 (List.nodup_cons.1 hnd').2
        · intro y hy
          exact hb y ((hperm y).2 (List.mem_cons_of_mem _ ((hmem y).1 hy)))
        · intro y hy
          exact .inl ((hperm y).2 (List.mem_cons_of_mem _ ((hmem y).1 hy)))
        · rw [setHead_heads]
          congr 1
          rw [hqT] at hk
          cases A with
          | nil =>
            simp only [List.nil_append, List.cons.injEq] at hk
            obtain ⟨rfl, rfl⟩ := hk
            rw [if_pos rfl]
            simp only [List.append_nil] at h5
            cases T with
            | nil => exact absurd rfl hTne
            | cons b T => simp at h5; simp [h5]
          | cons a A =>
            simp only [List.cons_append, List.cons.injEq] at hk
            obtain ⟨rfl, rfl⟩ := hk
            have : q ≠ x := by
              rintro rfl
              rw [hqT] at hnd; simp at hnd
            simp [this]
        · intro y hy1 hy2
          exact h6 y fun hm => hy2 ((hmem y).2 hm)

theorem holds_run {n : Nat} {L L' : Nat → List Nat} {os : List Op} (hs : SpecHistory n L os L') :
    ∀ {s : St}, s.coll.N = n → Holds s L → ∃ s', run s os = some s' ∧ Holds s' L' ∧ s'.coll.N = n := by
  induction hs with
  | nil => intro s hn h; exact ⟨s, rfl, h, hn⟩
  | cons ho _ ih =>
    intro s hn h
    subst hn
    obtain ⟨s1, h1, h2, h3⟩ := holds_step h ho
    obtain ⟨s2, h4, h5, h6⟩ := ih h3 h2
    exact ⟨s2, by simp [run, h1, h4], h5, h6⟩

theorem Holds.iterate {s : St} {L : Nat → List Nat} (h : Holds s L) (k : Nat) :
    LC.iterate s.coll (s.heads k) = some (L k) ∧
    iterateBack s.coll (s.heads k) = some (L k).reverse := by
  have hr := h.ring k
  have hnd := h.nodup k
  have hb := h.bound k
  have hlen : (L k).length < s.coll.N := by
    have hsub : (L k) ⊆ (List.range s.coll.N).tail := by
      intro x hx
      have := hb x hx
      obtain ⟨n, hn⟩ : ∃ n, s.coll.N = n + 1 := ⟨s.coll.N - 1, by have := h.pos; omega⟩
      rw [hn, List.range_succ_eq_map]
      simp only [List.tail_cons, List.mem_map, List.mem_range]
      exact ⟨x - 1, by omega, by omega⟩
    have := (hnd.subperm hsub).length_le
    simp at this
    have := h.pos
    omega
  rw [h.head]
  cases hk : L k with
  | nil =>
    constructor
    · unfold LC.iterate; cases s.coll.N <;> simp [forward]
    · unfold iterateBack
      simp only [List.headD_nil, getPrev, if_true, rdPrev_eq h.pos, h.zero, Option.bind_eq_bind,
        Option.bind_some]
      cases s.coll.N <;> simp [backward]
  | cons q T =>
    rw [hk] at hr hnd hb hlen
    simp only [List.headD_cons]
    constructor
    · exact forward_ok hr hb hnd T [] q _ rfl (by simp at hlen; omega)
    · obtain ⟨A, p, hA⟩ : ∃ A p, q :: T = A ++ [p] := by
        rcases List.eq_nil_or_concat (q :: T) with h1 | ⟨A, p, h1⟩
        · simp at h1
        · exact ⟨A, p, by simpa using h1⟩
      have hp : s.coll.prev q = p := (ring_last (hA ▸ hr) q (by rw [← hA]; rfl)).1
      unfold iterateBack
      simp only [getPrev, if_true, rdPrev_eq (hb q (by simp)).2, hp, Option.bind_eq_bind,
        Option.bind_some]
      rw [backward_ok hr hb hnd A.reverse p [] _ (by simpa using hA) (by
        have := congrArg List.length hA; simp at this hlen ⊢; omega), hA]
      simp

/-! ## C45 -/

/-- **C45.** Start from a new collection with all list variables empty and apply any history of
appends, prepends, insertions and deletions that the abstract lists allow. Every call stays inside
the array; at the end forward iteration from each list variable visits exactly the abstract
list, each element once, and stops; backward iteration visits the reverse. -/
theorem C45_history {n : Nat} (hn : 0 < n) {os : List Op} {L : Nat → List Nat}
    (h : SpecHistory n (fun _ => []) os L) :
    ∃ s, run ⟨new n, fun _ => 0⟩ os = some s ∧
      ∀ k, LC.iterate s.coll (s.heads k) = some (L k) ∧
        iterateBack s.coll (s.heads k) = some (L k).reverse := by
  obtain ⟨s, h1, h2, -⟩ := holds_run h (s := ⟨new n, fun _ => 0⟩) rfl
    ⟨fun _ => trivial, by simp, by simp, by simp, fun _ => rfl, rfl, hn⟩
  exact ⟨s, h1, h2.iterate⟩

/-- **C45 (copy).** LCCopy gives a collection in which every list iterates as in the source. -/
theorem C45_copy {n : Nat} (hn : 0 < n) {os : List Op} {L : Nat → List Nat}
    (h : SpecHistory n (fun _ => []) os L) {dst : Coll} (hd : dst.N = n) :
    ∃ s c, run ⟨new n, fun _ => 0⟩ os = some s ∧ copy dst s.coll = some c ∧
      ∀ k, LC.iterate c (s.heads k) = some (L k) ∧
        iterateBack c (s.heads k) = some (L k).reverse := by
  obtain ⟨s, h1, h2, h3⟩ := holds_run h (s := ⟨new n, fun _ => 0⟩) rfl
    ⟨fun _ => trivial, by simp, by simp, by simp, fun _ => rfl, rfl, hn⟩
  refine ⟨s, ⟨dst.N, fun i => if i < s.coll.N then s.coll.prev i else dst.prev i,
    fun i => if i < s.coll.N then s.coll.next i else dst.next i⟩, h1,
    by rw [copy, if_pos (by omega)], fun k => ?_⟩
  refine Holds.iterate (s := ⟨⟨dst.N, fun i => if i < s.coll.N then s.coll.prev i else dst.prev i,
    fun i => if i < s.coll.N then s.coll.next i else dst.next i⟩, s.heads⟩) ⟨fun j => ?_, h2.nodup, h2.disj, fun j x hx => ?_, h2.head, ?_, ?_⟩ k
  · refine ring_congr (h2.ring j) (fun x hx => ?_) (fun x hx => ?_) <;>
      simp [(h2.bound j x hx).2]
  · have := h2.bound j x hx; simp only; omega
  · simp [h2.pos, h2.zero]
  · simp only; omega

example : SpecHistory 6 (fun _ => [])
    [.append 0 3, .append 0 5, .prepend 0 1, .append 1 2, .insertAfter 3 4, .delete 0 1] (
      Function.update (Function.update (Function.update (Function.update (Function.update
        (Function.update (fun _ => []) 0 [3]) 0 [3, 5]) 0 [1, 3, 5]) 1 [2]) 0 [1, 3, 4, 5]) 0 [3, 4, 5]) := by
  have hf : ∀ (L : Nat → List Nat) x, 0 < x → x < 6 → x ∉ L 0 → x ∉ L 1 →
      (∀ k, k ≠ 0 → k ≠ 1 → L k = []) → FreshNode 6 L x := by
    intro L x h0 h6 h1 h2 h3
    refine ⟨h0, h6, fun k => ?_⟩
    by_cases hk : k = 0
    · subst hk; exact h1
    · by_cases hk1 : k = 1
      · subst hk1; exact h2
      · rw [h3 k hk hk1]; simp
  refine .cons (.append (hf _ 3 (by decide) (by decide) (by simp) (by simp) (by simp))) ?_
  refine .cons (.append (k := 0) (hf _ 5 (by decide) (by decide) (by simp) (by simp) ?_)) ?_
  · intro k h0 h1; simp [Function.update_of_ne, h0]
  refine .cons (.prepend (k := 0) (hf _ 1 (by decide) (by decide) (by simp) (by simp) ?_)) ?_
  · intro k h0 h1; simp [Function.update_of_ne, h0]
  refine .cons (.append (k := 1) (hf _ 2 (by decide) (by decide) (by simp) (by simp) ?_)) ?_
  · intro k h0 h1; simp [Function.update_of_ne, h0]
  refine .cons (.insertAfter (k := 0) (A := [1]) (B := [5])
    (hf _ 4 (by decide) (by decide) (by simp) (by simp) ?_) (by simp)) ?_
  · intro k h0 h1; simp [Function.update_of_ne, h0, h1]
  exact .cons (.delete (k := 0) (A := []) (B := [3, 4, 5]) (by simp)) .nil

end Verif.Props
