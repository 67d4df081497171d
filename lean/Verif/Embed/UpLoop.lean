import Verif.Embed.Up

/-
The loop of _WalkUp.
-/
namespace Verif.Embed
open Verif Verif.Graph Verif.EGraph Equiv Equiv.Perm Verif.Map Function
open Verif.Props (AncEq Anc)

variable {B : Base} {Pl : Plan B} {G : Gh B.D} {s : EGraph} {fw PR : Nat → List Nat} {v : Nat}

theorem UpAt.swap {Own : Nat → Prop} {c zig zag : Nat} {a b : Bool} (h : UpAt G s Own c zig zag a b) : UpAt G s Own c zag zig b a := by
  refine ⟨h.live, ?_, h.own⟩
  obtain ⟨Y, o, A, M, Q, hr, hm, hpos, ha, hb, ho⟩ := h.pos
  refine ⟨Y.reverse, fun x => !o x, Q.reverse, M.reverse, A.reverse, hr.reverse fun _ _ => rfl, by simpa using hm, ?_, ?_, ?_, ?_⟩
  · rcases hpos with ⟨rfl, h1, h2⟩ | h1
    · left; exact ⟨rfl, by rw [h1]; simp, by simp [h2]⟩
    · right; rw [h1]; simp
  · simp [hb]
  · simp [ha]
  · intro x hx hc; simpa using ho x hx hc

/-- The present vertices are of the component and not marked by this walk. -/
theorem UpAt.here {Own : Nat → Prop} {c zig zag : Nat} {a b : Bool} (hg : Good B.N B.par B.α G) (h : UpAt G s Own c zig zag a b) :
    1 ≤ zig ∧ zig ≤ B.N ∧ G.cp zig = c ∧ ¬ Own zig := by
  obtain ⟨Y, o, A, M, Q, hr, hm, hpos, ha, hb, ho⟩ := h.pos
  have hzY : zig ∈ Y := by rcases hpos with ⟨rfl, h1, _⟩ | h1 <;> rw [h1] <;> simp
  obtain ⟨z1, z2, z3⟩ := hg.bd c h.live zig ((hm zig).1 hzY)
  refine ⟨z1, z2, z3, fun hh => ?_⟩
  have h1 := ho zig hh z3
  have hnd := hr.nodup
  rcases hpos with ⟨rfl, _, h2⟩ | h2
  · rw [h2] at h1; simp at h1
  · rw [h2] at hnd
    simp only [List.nodup_append, List.nodup_cons] at hnd
    exact hnd.2.1.2.2.2 zig h1 zig (by simp) rfl

/-- One side has reached the root. -/
theorem UpAt.root {Own : Nat → Prop} {c zig zag : Nat} {a b : Bool} (hg : Good B.N B.par B.α G) (h : UpAt G s Own c zig zag a b)
    (hN : B.N < s.ext zig (!a)) : s.ext zig (!a) = c + B.N ∧ (s.ext (c + B.N) false = zig ∨ s.ext (c + B.N) true = zig) ∧
      ∀ d, s.ext (c + B.N) d ≠ zig → 1 ≤ s.ext (c + B.N) d ∧ s.ext (c + B.N) d ≤ B.N ∧ G.cp (s.ext (c + B.N) d) = c ∧ ¬ Own (s.ext (c + B.N) d) := by
  obtain ⟨Y, o, A, M, Q, hr, hm, hpos, ha, hb, ho⟩ := h.pos
  have hY : ∀ x ∈ Y, 1 ≤ x ∧ x ≤ B.N ∧ G.cp x = c := fun x hx => hg.bd c h.live x ((hm x).1 hx)
  rw [ha, Bool.not_not] at hN ⊢
  obtain ⟨A1, hA1⟩ : ∃ A1, Y = A1 ++ zig :: Q := by
    rcases hpos with ⟨_, h1, _⟩ | h1
    · exact ⟨A, h1⟩
    · exact ⟨A ++ zag :: M, by rw [h1]; simp⟩
  have hQ : Q = [] := by
    cases Q with
    | nil => rfl
    | cons q Q =>
      exfalso
      rw [hA1] at hr
      rw [hr.next.1] at hN
      have := hY q (by rw [hA1]; simp)
      omega
  subst hQ
  have hr1 := hr
  rw [hA1] at hr1
  have hl := hr1.last
  refine ⟨hl.1, ?_, ?_⟩
  · cases hq : o (c + B.N)
    · right; have := hl.2; rw [hq] at this; exact this
    · left; have := hl.2; rw [hq] at this; exact this
  · intro d hd
    have hdo : d = o (c + B.N) := by
      by_contra hh
      rw [bool_ne hh] at hd
      exact hd hl.2
    obtain ⟨y, T, hyT⟩ : ∃ y T, Y = y :: T := by
      cases hq : Y with
      | nil => exact absurd hq hr.ne
      | cons y T => exact ⟨y, T, rfl⟩
    have hr2 := hr
    rw [hyT] at hr2
    have hf := hr2.first.1
    rw [hdo] at hd ⊢
    rw [hf] at hd ⊢
    obtain ⟨y1, y2, y3⟩ := hY y (by rw [hyT]; simp)
    refine ⟨y1, y2, y3, fun hh => ?_⟩
    have hM := ho y hh y3
    rcases hpos with ⟨_, _, h2⟩ | h2
    · rw [h2] at hM; simp at hM
    · have hnd := hr.nodup
      rw [h2] at hnd
      have hyA : y ∈ A ++ [zag] := by
        have h3 : y :: T = A ++ zag :: (M ++ [zig]) := hyT.symm.trans h2
        cases A with
        | nil => simp at h3; simp [h3.1]
        | cons a A => simp at h3; simp [h3.1]
      have e : A ++ zag :: (M ++ [zig]) = (A ++ [zag]) ++ (M ++ [zig]) := by simp
      rw [e, List.nodup_append] at hnd
      exact hnd.2.2 y hyA y (by simp [hM]) rfl

/-- Both sides move on. -/
theorem UpAt.on {Own : Nat → Prop} {c zig zag : Nat} {a b : Bool} (hg : Good B.N B.par B.α G) (h : UpAt G s Own c zig zag a b)
    (h1 : ¬ B.N < s.ext zig (!a)) (h2 : ¬ B.N < s.ext zag (!b)) {s' : EGraph} (he : s'.ext = s.ext) :
    UpAt G s' (fun y => (Own y ∨ y = zig) ∨ y = zag) c (s.ext zig (!a)) (s.ext zag (!b))
      (if s.ext (s.ext zig (!a)) false = zig then false else true) (if s.ext (s.ext zag (!b)) false = zag then false else true) := by
  obtain ⟨Y, o, A, M, Q, hr, hm, hpos, ha, hb, ho⟩ := h.pos
  have hz1 := h.here hg
  have hz2 := h.swap.here hg
  have hc1 := h.live.1
  refine ⟨h.live, ?_, ?_⟩
  · rw [ha, Bool.not_not] at h1 ⊢
    rw [hb] at h2 ⊢
    obtain ⟨A1, hA1⟩ : ∃ A1, Y = A1 ++ zig :: Q := by
      rcases hpos with ⟨_, h1, _⟩ | h1
      · exact ⟨A, h1⟩
      · exact ⟨A ++ zag :: M, by rw [h1]; simp⟩
    obtain ⟨Q1, hQ1⟩ : ∃ Q1, Y = A ++ zag :: Q1 := by
      rcases hpos with ⟨rfl, h1, _⟩ | h1
      · exact ⟨Q, h1⟩
      · exact ⟨_, h1⟩
    have hrr : Ring s (c + B.N) Y.reverse fun x => !o x := hr.reverse fun _ _ => rfl
    obtain ⟨q, Q', hq⟩ : ∃ q Q', Q = q :: Q' := by
      cases hq : Q with
      | cons q Q' => exact ⟨q, Q', rfl⟩
      | nil =>
        exfalso
        rw [hA1, hq] at hr
        rw [hr.last.1] at h1
        omega
    obtain ⟨A', p, hp⟩ : ∃ A' p, A = A' ++ [p] := by
      rcases List.eq_nil_or_concat A with hq | ⟨A', p, hq⟩
      · exfalso
        rw [hQ1, hq] at hr
        rw [Ring.first hr |>.2] at h2
        omega
      · exact ⟨A', p, by rw [hq, List.concat_eq_append]⟩
    have hr1 : Ring s (c + B.N) (A1 ++ zig :: q :: Q') o := by rw [hA1, hq] at hr; exact hr
    have hr2 : Ring s (c + B.N) (Q1.reverse ++ zag :: p :: A'.reverse) fun x => !o x := by
      have : Y.reverse = Q1.reverse ++ zag :: p :: A'.reverse := by rw [hQ1, hp]; simp
      rw [← this]; exact hrr
    have n1 : s.ext zig (o zig) = q := hr1.next.1
    have n2 : s.ext zag (!o zag) = p := hr2.next.1
    have b1 := hr1.next_back
    have b2 := hr2.next_back
    rw [n1, n2]
    have hc : ∀ (x y : Nat) (d : Bool), decide (s.ext y false = x) = d → (if s.ext y false = x then false else true) = !d := by
      intro x y d hd
      by_cases hq : s.ext y false = x
      · rw [if_pos hq, ← hd, decide_eq_true hq]; rfl
      · rw [if_neg hq, ← hd, decide_eq_false hq]; rfl
    have hring' : Ring s' (c + B.N) Y o := hr.congr (fun _ _ _ => by rw [he]) fun _ _ => rfl
    rw [hc _ _ _ b1, hc _ _ _ b2, Bool.not_not]
    rcases hpos with ⟨rfl, k1, k2⟩ | k1
    · refine ⟨Y, o, A', [zig], Q', hring', hm, .inr (by rw [k1, hp, hq]; simp), rfl, rfl, ?_⟩
      rintro x ((hx | rfl) | rfl) hxc
      · have := ho x hx hxc; rw [k2] at this; simp at this
      · simp
      · simp
    · refine ⟨Y, o, A', zag :: (M ++ [zig]), Q', hring', hm, .inr (by rw [k1, hp, hq]; simp), rfl, rfl, ?_⟩
      rintro x ((hx | rfl) | rfl) hxc
      · have := ho x hx hxc; simp [this]
      · simp
      · simp
  · rintro x ((hx | rfl) | rfl)
    · exact h.own x hx
    · omega
    · omega

theorem seen_eq {x : Nat} (h : x < 1 + s.p.g.N) : s.seen x v = some (decide (vis s x = v)) := by
  unfold EGraph.seen
  rw [rdVI_ok h]; rfl

/-- What the tests find. -/
theorem upTest_spec {Own : Nat → Prop} {c zig zag : Nat} {a b : Bool} (hg : Good B.N B.par B.α G) (rp : Rep B s G)
    (h : UpAt G s Own c zig zag a b) : ∃ go, s.upTest v zig zag a b = some go ∧
    ((go = .stop ∧ ∃ y, 1 ≤ y ∧ y ≤ B.N ∧ G.cp y = c ∧ vis s y = v ∧ ¬ Own y) ∨
    (go = .up (c + B.N) ∧ vis s (s.ext (c + B.N) false) ≠ v ∧ vis s (s.ext (c + B.N) true) ≠ v ∧
      ∃ d, s.ext (c + B.N) d = zig ∨ s.ext (c + B.N) d = zag) ∨
    (go = .on (s.ext zig (!a)) (s.ext zag (!b)) ∧ ¬ B.N < s.ext zig (!a) ∧ ¬ B.N < s.ext zag (!b) ∧ vis s zig ≠ v)) := by
  have hpick : ∀ {z : Nat} {w t1 t2 : Bool}, (s.ext (c + B.N) false = z ∨ s.ext (c + B.N) true = z) → ¬ vis s z = v →
      w = (if s.ext (c + B.N) false = z then true else false) → ¬ vis s (s.ext (c + B.N) w) = v →
      vis s (s.ext (c + B.N) false) ≠ v ∧ vis s (s.ext (c + B.N) true) ≠ v := by
    intro z w _ _ hz hz1 hw hw1
    by_cases hq : s.ext (c + B.N) false = z
    · rw [if_pos hq] at hw; rw [hw] at hw1; rw [hq]; exact ⟨hz1, hw1⟩
    · rw [if_neg hq] at hw; rw [hw] at hw1; rw [hz.resolve_left hq]; exact ⟨hw1, hz1⟩
  have hz1 := h.here hg
  have hz2 := h.swap.here hg
  have hN := rp.N
  obtain ⟨hcN, _, _⟩ := hg.root c h.live
  have hRv : c + B.N < s.p.g.vSize := by rw [rp.vSize]; omega
  have hzv : zig < s.p.g.vSize := by rw [rp.vSize]; omega
  have hzv' : zag < s.p.g.vSize := by rw [rp.vSize]; omega
  generalize he : s.upTest v zig zag a b = o
  unfold EGraph.upTest at he
  rw [getExt_eq hzv] at he
  simp only [Option.bind_eq_bind, Option.bind_some] at he
  by_cases c1 : B.N < s.ext zig (!a)
  · rw [if_pos (by rw [hN]; exact c1)] at he
    obtain ⟨r1, r2, r3⟩ := h.root hg c1
    rw [seen_eq (by omega)] at he
    simp only [Option.bind_some] at he
    by_cases hv : vis s zig = v
    · rw [decide_eq_true hv] at he
      simp only [if_true, pure] at he
      subst he
      exact ⟨_, rfl, .inl ⟨rfl, zig, hz1.1, hz1.2.1, hz1.2.2.1, hv, hz1.2.2.2⟩⟩
    · rw [decide_eq_false hv] at he
      simp only [Bool.false_eq_true, if_false] at he
      rw [r1, getExt_eq hRv] at he
      simp only [Option.bind_some] at he
      rw [getExt_eq hRv] at he
      simp only [Option.bind_some] at he
      obtain ⟨w, hw⟩ : ∃ w, w = (if s.ext (c + B.N) false = zig then true else false) := ⟨_, rfl⟩
      rw [← hw] at he
      have hwN : s.ext (c + B.N) w < 1 + s.p.g.N := by
        by_cases hq : s.ext (c + B.N) w = zig
        · rw [hq]; omega
        · have := r3 w hq; omega
      rw [seen_eq hwN] at he
      simp only [Option.bind_some] at he
      by_cases hv2 : vis s (s.ext (c + B.N) w) = v
      · rw [decide_eq_true hv2] at he
        simp only [if_true, pure] at he
        subst he
        have hne : s.ext (c + B.N) w ≠ zig := by intro hh; rw [hh] at hv2; exact hv hv2
        have := r3 _ hne
        exact ⟨_, rfl, .inl ⟨rfl, _, this.1, this.2.1, this.2.2.1, hv2, this.2.2.2⟩⟩
      · rw [decide_eq_false hv2] at he
        simp only [Bool.false_eq_true, if_false, pure] at he
        subst he
        have hboth := hpick (t1 := true) (t2 := true) r2 hv hw hv2
        refine ⟨_, rfl, .inr (.inl ⟨rfl, hboth.1, hboth.2, ?_⟩)⟩
        rcases r2 with r2 | r2
        · exact ⟨false, .inl r2⟩
        · exact ⟨true, .inl r2⟩
  · rw [if_neg (by rw [hN]; exact c1)] at he
    rw [getExt_eq hzv'] at he
    simp only [Option.bind_some] at he
    by_cases c2 : B.N < s.ext zag (!b)
    · rw [if_pos (by rw [hN]; exact c2)] at he
      obtain ⟨r1, r2, r3⟩ := h.swap.root hg c2
      rw [seen_eq (by omega)] at he
      simp only [Option.bind_some] at he
      by_cases hv : vis s zag = v
      · rw [decide_eq_true hv] at he
        simp only [if_true, pure] at he
        subst he
        exact ⟨_, rfl, .inl ⟨rfl, zag, hz2.1, hz2.2.1, hz2.2.2.1, hv, hz2.2.2.2⟩⟩
      · rw [decide_eq_false hv] at he
        simp only [Bool.false_eq_true, if_false] at he
        rw [r1, getExt_eq hRv] at he
        simp only [Option.bind_some] at he
        rw [getExt_eq hRv] at he
        simp only [Option.bind_some] at he
        obtain ⟨w, hw⟩ : ∃ w, w = (if s.ext (c + B.N) false = zag then true else false) := ⟨_, rfl⟩
        rw [← hw] at he
        have hwN : s.ext (c + B.N) w < 1 + s.p.g.N := by
          by_cases hq : s.ext (c + B.N) w = zag
          · rw [hq]; omega
          · have := r3 w hq; omega
        rw [seen_eq hwN] at he
        simp only [Option.bind_some] at he
        by_cases hv2 : vis s (s.ext (c + B.N) w) = v
        · rw [decide_eq_true hv2] at he
          simp only [if_true, pure] at he
          subst he
          have hne : s.ext (c + B.N) w ≠ zag := by intro hh; rw [hh] at hv2; exact hv hv2
          have := r3 _ hne
          exact ⟨_, rfl, .inl ⟨rfl, _, this.1, this.2.1, this.2.2.1, hv2, this.2.2.2⟩⟩
        · rw [decide_eq_false hv2] at he
          simp only [Bool.false_eq_true, if_false, pure] at he
          subst he
          have hboth := hpick (t1 := true) (t2 := true) r2 hv hw hv2
          refine ⟨_, rfl, .inr (.inl ⟨rfl, hboth.1, hboth.2, ?_⟩)⟩
          rcases r2 with r2 | r2
          · exact ⟨false, .inr r2⟩
          · exact ⟨true, .inr r2⟩
    · rw [if_neg (by rw [hN]; exact c2)] at he
      rw [seen_eq (by omega)] at he
      simp only [Option.bind_some] at he
      by_cases hv : vis s zig = v
      · rw [decide_eq_true hv] at he
        simp only [if_true, pure] at he
        subst he
        exact ⟨_, rfl, .inl ⟨rfl, zig, hz1.1, hz1.2.1, hz1.2.2.1, hv, hz1.2.2.2⟩⟩
      · rw [decide_eq_false hv] at he
        simp only [Bool.false_eq_true, if_false] at he
        rw [seen_eq (by omega)] at he
        simp only [Option.bind_some] at he
        by_cases hv2 : vis s zag = v
        · rw [decide_eq_true hv2] at he
          simp only [if_true, pure] at he
          subst he
          exact ⟨_, rfl, .inl ⟨rfl, zag, hz2.1, hz2.2.1, hz2.2.2.1, hv2, hz2.2.2.2⟩⟩
        · rw [decide_eq_false hv2] at he
          simp only [Bool.false_eq_true, if_false, pure] at he
          subst he
          exact ⟨_, rfl, .inr (.inr ⟨rfl, c1, c2, hv⟩)⟩

/-- The number of vertices not seen yet. -/
noncomputable def unseen (B : Base) (s : EGraph) (v : Nat) : Nat := by
  classical exact ((Finset.Icc 1 B.N).filter fun x => vis s x ≠ v).card

theorem unseen_le : unseen B s v ≤ B.N := by
  classical
  unfold unseen
  refine (Finset.card_filter_le _ _).trans ?_
  simp

theorem unseen_lt {s' : EGraph} {x : Nat} (hx : 1 ≤ x ∧ x ≤ B.N) (h : vis s x ≠ v) (h' : vis s' x = v) (hk : ∀ y, vis s y = v → vis s' y = v) :
    unseen B s' v < unseen B s v := by
  classical
  unfold unseen
  refine Finset.card_lt_card (Finset.ssubset_iff_of_subset ?_ |>.2 ⟨x, ?_, ?_⟩)
  · intro y hy
    simp only [Finset.mem_filter, Finset.mem_Icc] at hy ⊢
    exact ⟨hy.1, fun hh => hy.2 (hk y hh)⟩
  · simp only [Finset.mem_filter, Finset.mem_Icc]; exact ⟨hx, h⟩
  · simp only [Finset.mem_filter, not_and, not_not]; exact fun _ => h'

end Verif.Embed
