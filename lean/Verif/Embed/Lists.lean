import Verif.Util.ListCollLemmas
import Mathlib.Logic.Function.Basic
import Mathlib.Data.List.Basic

/-
Several lists kept as rings in one collection, with their heads elsewhere.
-/
namespace Verif.Embed
open Verif Verif.LC Function

/-- The rings of `c` with heads `hd` are the lists `Ls`. -/
structure Lists (c : Coll) (hd : Nat → Nat) (n : Nat) (Ls : Nat → List Nat) : Prop where
  head : ∀ z, 1 ≤ z → z ≤ n → hd z = (Ls z).headD 0
  ring : ∀ z, Ring c (Ls z)
  nodup : ∀ z, (Ls z).Nodup
  bound : ∀ z, ∀ y ∈ Ls z, 0 < y ∧ y < c.N
  disj : ∀ z w y, y ∈ Ls z → y ∈ Ls w → z = w

variable {c : Coll} {hd : Nat → Nat} {n : Nat} {Ls : Nat → List Nat}

theorem Lists.zero (h : Lists c hd n Ls) {z : Nat} (h1 : 1 ≤ z) (h2 : z ≤ n) : hd z = 0 ↔ Ls z = [] := by
  rw [h.head z h1 h2]
  cases hL : Ls z with
  | nil => simp
  | cons a t =>
    have := (h.bound z a (by rw [hL]; simp)).1
    simp; omega

theorem Lists.congr (h : Lists c hd n Ls) {c' : Coll} {hd' : Nat → Nat} (hN : c'.N = c.N)
    (hh : ∀ z, 1 ≤ z → z ≤ n → hd' z = hd z)
    (hn : ∀ z, ∀ y ∈ Ls z, c'.next y = c.next y ∧ c'.prev y = c.prev y) : Lists c' hd' n Ls :=
  ⟨fun z h1 h2 => by rw [hh z h1 h2]; exact h.head z h1 h2,
    fun z => ring_congr (h.ring z) (fun y hy => (hn z y hy).1) (fun y hy => (hn z y hy).2),
    h.nodup, fun z y hy => by rw [hN]; exact h.bound z y hy, h.disj⟩

/-- One list replaced. -/
theorem Lists.replace (h : Lists c hd n Ls) {z : Nat} {c' : Coll} {h' : Nat} {L' : List Nat} (hN : c'.N = c.N)
    (hh : h' = L'.headD 0) (hr : Ring c' L') (hnd : L'.Nodup) (hb : ∀ y ∈ L', 0 < y ∧ y < c.N)
    (hd' : ∀ w, w ≠ z → ∀ y ∈ L', y ∉ Ls w)
    (hn : ∀ w, w ≠ z → ∀ y ∈ Ls w, c'.next y = c.next y ∧ c'.prev y = c.prev y) :
    Lists c' (update hd z h') n (update Ls z L') := by
  constructor
  · intro w h1 h2
    by_cases hw : w = z
    · subst hw; rw [update_self, update_self]; exact hh
    · rw [update_of_ne hw, update_of_ne hw]; exact h.head w h1 h2
  · intro w
    by_cases hw : w = z
    · subst hw; rw [update_self]; exact hr
    · rw [update_of_ne hw]
      exact ring_congr (h.ring w) (fun y hy => (hn w hw y hy).1) (fun y hy => (hn w hw y hy).2)
  · intro w
    by_cases hw : w = z
    · subst hw; rw [update_self]; exact hnd
    · rw [update_of_ne hw]; exact h.nodup w
  · intro w
    rw [hN]
    by_cases hw : w = z
    · subst hw; rw [update_self]; exact hb
    · rw [update_of_ne hw]; exact h.bound w
  · intro w x y
    by_cases hw : w = z <;> by_cases hx : x = z
    · subst hw; subst hx; intros; rfl
    · subst hw; rw [update_self, update_of_ne hx]; intro h1 h2; exact absurd h2 (hd' x hx y h1)
    · subst hx; rw [update_self, update_of_ne hw]; intro h1 h2; exact absurd h1 (hd' w hw y h2)
    · rw [update_of_ne hw, update_of_ne hx]; exact h.disj w x y

theorem Lists.clear (h : Lists c hd n Ls) (z : Nat) : Lists c (update hd z 0) n (update Ls z []) :=
  h.replace rfl rfl trivial List.nodup_nil (by simp) (by simp) (fun _ _ _ _ => ⟨rfl, rfl⟩)

theorem single_ok {x : Nat} (hx : x < c.N) : ∃ d, LC.single c x = some d ∧ d.N = c.N ∧ Ring d [x] ∧
    ∀ y, y ≠ x → d.next y = c.next y ∧ d.prev y = c.prev y := by
  unfold LC.single
  rw [wrNext_eq hx]
  simp only [Option.bind_eq_bind, Option.bind_some]
  rw [wrPrev_eq (by exact hx)]
  refine ⟨_, rfl, rfl, ?_, ?_⟩
  · rw [ring_iff]; simp [R]
  · intro y hy; simp [hy]

theorem Lists.append (h : Lists c hd n Ls) {z x : Nat} (h1 : 1 ≤ z) (h2 : z ≤ n) (hx : 0 < x ∧ x < c.N)
    (hf : ∀ w, x ∉ Ls w) : ∃ c' h', LC.append c (hd z) x = some (c', h') ∧ c'.N = c.N ∧
      Lists c' (update hd z h') n (update Ls z (Ls z ++ [x])) := by
  cases hL : Ls z with
  | nil =>
    have hz := (h.zero h1 h2).2 hL
    obtain ⟨d, e1, e2, e3, e4⟩ := single_ok (c := c) hx.2
    refine ⟨d, x, ?_, e2, ?_⟩
    · rw [hz]; unfold LC.append; rw [if_pos rfl, e1]; rfl
    · refine h.replace e2 rfl e3 (by simp) (by simpa using hx) ?_ ?_
      · intro w _ y hy; simp at hy; subst hy; exact hf w
      · intro w _ y hy; exact e4 y fun hh => hf w (hh ▸ hy)
  | cons q T =>
    have hq : hd z = q := by rw [h.head z h1 h2, hL]; rfl
    have hq0 : q ≠ 0 := by have := (h.bound z q (by rw [hL]; simp)).1; omega
    obtain ⟨d, e1, e2, e3, e4, e5⟩ := linkBefore_ok (c := c) (hL ▸ h.ring z) (hL ▸ h.nodup z) (x := x) (hL ▸ hf z)
      (fun y hy => (h.bound z y (hL ▸ hy)).2) hx.2
    refine ⟨d, q, ?_, e2, ?_⟩
    · rw [hq]; unfold LC.append; rw [if_neg hq0, e1]; rfl
    · have hmem : ∀ y ∈ q :: T ++ [x], y ∈ Ls z ∨ y = x := by
        intro y hy; rw [hL]; simpa [or_assoc] using hy
      refine h.replace e2 rfl e3 ?_ ?_ ?_ ?_
      · have : (q :: T ++ [x]).Nodup := by
          rw [List.nodup_append]
          refine ⟨hL ▸ h.nodup z, by simp, ?_⟩
          rintro a ha b hb rfl
          simp at hb; subst hb
          exact hf z (hL ▸ ha)
        exact this
      · intro y hy
        rcases hmem y hy with hy | rfl
        · exact h.bound z y hy
        · exact hx
      · intro w hw y hy hyw
        rcases hmem y hy with hy | rfl
        · exact hw (h.disj _ _ _ hyw hy)
        · exact hf w hyw
      · intro w hw y hy
        refine e5 y (fun hh => hw (h.disj _ _ _ hy (hL ▸ hh))) fun hh => hf w (hh ▸ hy)

theorem Lists.prepend (h : Lists c hd n Ls) {z x : Nat} (h1 : 1 ≤ z) (h2 : z ≤ n) (hx : 0 < x ∧ x < c.N)
    (hf : ∀ w, x ∉ Ls w) : ∃ c' h', LC.prepend c (hd z) x = some (c', h') ∧ c'.N = c.N ∧
      Lists c' (update hd z h') n (update Ls z (x :: Ls z)) := by
  cases hL : Ls z with
  | nil =>
    have hz := (h.zero h1 h2).2 hL
    obtain ⟨d, e1, e2, e3, e4⟩ := single_ok (c := c) hx.2
    refine ⟨d, x, ?_, e2, ?_⟩
    · rw [hz]; unfold LC.prepend; rw [if_pos rfl, e1]; rfl
    · refine h.replace e2 rfl e3 (by simp) (by simpa using hx) ?_ ?_
      · intro w _ y hy; simp at hy; subst hy; exact hf w
      · intro w _ y hy; exact e4 y fun hh => hf w (hh ▸ hy)
  | cons q T =>
    have hq : hd z = q := by rw [h.head z h1 h2, hL]; rfl
    have hqb := h.bound z q (by rw [hL]; simp)
    have hq0 : q ≠ 0 := by omega
    obtain ⟨d, e1, e2, e3, e4, e5⟩ := linkBefore_ok (c := c) (hL ▸ h.ring z) (hL ▸ h.nodup z) (x := x) (hL ▸ hf z)
      (fun y hy => (h.bound z y (hL ▸ hy)).2) hx.2
    refine ⟨d, x, ?_, e2, ?_⟩
    · rw [hq]; unfold LC.prepend; rw [if_neg hq0, e1]
      simp only [Option.bind_eq_bind, Option.bind_some]
      rw [rdPrev_eq (by rw [e2]; exact hqb.2), e4]; rfl
    · have hmem : ∀ y ∈ x :: q :: T, y ∈ Ls z ∨ y = x := by
        intro y hy; rw [hL]
        rcases List.mem_cons.1 hy with rfl | hy
        · exact .inr rfl
        · exact .inl hy
      refine h.replace e2 rfl ?_ ?_ ?_ ?_ ?_
      · exact (ring_rotate (q :: T) [x]).1 e3
      · rw [List.nodup_cons]; exact ⟨fun hh => hf z (hL ▸ hh), hL ▸ h.nodup z⟩
      · intro y hy
        rcases hmem y hy with hy | rfl
        · exact h.bound z y hy
        · exact hx
      · intro w hw y hy hyw
        rcases hmem y hy with hy | rfl
        · exact hw (h.disj _ _ _ hyw hy)
        · exact hf w hyw
      · intro w hw y hy
        refine e5 y (fun hh => hw (h.disj _ _ _ hy (hL ▸ hh))) fun hh => hf w (hh ▸ hy)

theorem Lists.delete (h : Lists c hd n Ls) {z x : Nat} {A B : List Nat} (h1 : 1 ≤ z) (h2 : z ≤ n) (hL : Ls z = A ++ x :: B) :
    ∃ c' h', LC.delete c (hd z) x = some (c', h') ∧ c'.N = c.N ∧ Lists c' (update hd z h') n (update Ls z (A ++ B)) := by
  have hnd := h.nodup z
  have hb := h.bound z
  rw [hL] at hnd hb
  have hmem : ∀ y ∈ A ++ B, y ∈ Ls z := by intro y hy; rw [hL]; simp at hy ⊢; tauto
  have hr : Ring c (x :: (B ++ A)) := by
    have := h.ring z
    rw [hL, ring_rotate] at this
    exact this
  have hnd' : (x :: (B ++ A)).Nodup := by
    have hp : List.Perm (A ++ x :: B) (x :: (B ++ A)) := by
      have h1 : List.Perm (A ++ x :: B) ((x :: B) ++ A) := List.perm_append_comm
      exact h1
    exact hp.nodup_iff.1 hnd
  have hndAB : (A ++ B).Nodup := by
    have := (List.nodup_cons.1 hnd').2
    exact (List.perm_append_comm.nodup_iff).1 this
  have hb' : ∀ y ∈ x :: (B ++ A), 0 < y ∧ y < c.N := by
    intro y hy; refine hb y ?_; simp at hy ⊢; tauto
  have hheadlt : hd z < c.N ∧ hd z ∈ A ++ x :: B := by
    have : hd z ∈ A ++ x :: B := by
      rw [h.head z h1 h2, hL]; cases A <;> simp
    exact ⟨(hb _ this).2, this⟩
  have hnodisj : ∀ w, w ≠ z → ∀ y ∈ A ++ B, y ∉ Ls w := fun w hw y hy hyw => hw (h.disj _ _ _ hyw (hmem y hy))
  by_cases hnil : B ++ A = []
  · have hA : A = [] := by simp at hnil; exact hnil.2
    have hB : B = [] := by simp at hnil; exact hnil.1
    subst hA; subst hB
    have hx : hd z = x := by rw [h.head z h1 h2, hL]; rfl
    have hnx : c.next x = x := by
      rw [ring_iff] at hr; simp [R] at hr; exact hr.1
    have hxN : x < c.N := (hb x (by simp)).2
    refine ⟨{ c with next := fun j => if j = x then 0 else c.next j, prev := fun j => if j = x then 0 else c.prev j }, 0, ?_, rfl, ?_⟩
    · unfold LC.delete
      rw [hx, rdNext_eq hxN]
      simp only [Option.bind_eq_bind, Option.bind_some, hnx, if_true]
      rw [wrNext_eq hxN]
      simp only [Option.bind_some]
      rw [wrPrev_eq (by exact hxN)]; rfl
    · refine h.replace rfl rfl trivial (by simp) (by simp) (by simp) ?_
      intro w hw y hy
      have : y ≠ x := fun hh => hw (h.disj _ _ _ hy (by rw [hL, hh]; simp))
      simp [this]
  · obtain ⟨d, e1, e2, e3, e4, e5, e6⟩ := unlink_ok hr hnil hnd' (fun y hy => (hb' y hy).2)
    have hxN : x < c.N := (hb' x (by simp)).2
    have hnot : c.next (hd z) ≠ hd z := by
      intro hh
      -- a ring with two elements has no fixed point
      obtain ⟨A', B', hs⟩ := List.append_of_mem hheadlt.2
      have hr2 := h.ring z
      rw [hL, hs, ring_rotate, List.cons_append, ring_iff] at hr2
      have hnd2 : ((hd z :: B') ++ A').Nodup := by
        rw [hs] at hnd
        exact (List.perm_append_comm.nodup_iff).1 hnd
      cases hBA : B' ++ A' with
      | nil =>
        have hlen := congrArg List.length hs
        have hl2 := congrArg List.length hBA
        simp at hlen hl2
        obtain ⟨rfl, rfl⟩ := hl2
        simp at hlen
        have : B ++ A = [] := by simp; constructor <;> apply List.eq_nil_of_length_eq_zero <;> omega
        exact hnil this
      | cons b S =>
        rw [hBA, List.cons_append, List.isChain_cons_cons] at hr2
        have hb2 := hr2.1.1
        rw [hh] at hb2
        rw [List.cons_append, hBA, List.nodup_cons] at hnd2
        exact hnd2.1 (by rw [hb2]; simp)
    refine ⟨d, if hd z = x then c.next x else hd z, ?_, e2, ?_⟩
    · unfold LC.delete
      rw [rdNext_eq hheadlt.1]
      simp only [Option.bind_eq_bind, Option.bind_some]
      rw [if_neg hnot, e1]
      simp only [Option.bind_some]
      rw [rdNext_eq (by rw [e2]; exact hxN), e4]; rfl
    · refine h.replace e2 ?_ ?_ hndAB ?_ hnodisj ?_
      · rw [h.head z h1 h2, hL]
        cases A with
        | nil =>
          simp only [List.nil_append, List.headD_cons, if_true]
          have := e5
          rw [List.append_nil] at this
          cases B with
          | nil => simp at this
          | cons b B => simp at this; simp [this]
        | cons a A =>
          have : a ≠ x := by
            rw [List.cons_append, List.nodup_cons] at hnd
            intro hh; exact hnd.1 (by rw [hh]; simp)
          simp [this]
      · exact (ring_rotate B A).1 e3
      · intro y hy; exact hb y (by simp at hy ⊢; tauto)
      · intro w hw y hy
        refine e6 y fun hh => hnodisj w hw y ?_ hy
        simp at hh ⊢; tauto

end Verif.Embed
