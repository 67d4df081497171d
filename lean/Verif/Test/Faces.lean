import Verif.Map.Graph
import Verif.DFS.Reach
import Mathlib.Logic.Function.Basic

/-
The facial walks counted by the embedding test.
-/
namespace Verif
namespace Test
open Graph Map Equiv Equiv.Perm

/-- `g` with other edge flags and another stack. -/
def flagged (g : Graph) (F : Nat → Nat) (st : List Nat) : Graph :=
  { g with E := fun e => { g.E e with flags := F e }, stack := st }

theorem flagged_self (g : Graph) : flagged g (fun e => (g.E e).flags) g.stack = g := rfl
theorem flagged_flagged (g : Graph) (F G s t) : flagged (flagged g F s) G t = flagged g G t := rfl

theorem WInv.flagged {g : Graph} {rot} (h : WInv g rot) (F s) : WInv (flagged g F s) rot :=
  ⟨h.links.congr rfl rfl (fun _ b => by cases b <;> rfl) (fun _ b => by cases b <;> rfl), h.owner, h.twins⟩

theorem setEdge_flagged {g : Graph} {F s e} (he : e < g.eSize) :
    Random.setEdgeVisited (flagged g F s) e = some (flagged g (Function.update F e (F e ||| 1)) s) := by
  have he' : e < (flagged g F s).eSize := he
  unfold Random.setEdgeVisited rdE wrE
  simp only [he', if_true, Option.bind_eq_bind, Option.bind_some]
  congr 1
  unfold Test.flagged
  congr 1
  funext x
  simp only
  by_cases hx : x = e
  · subst hx; simp
  · simp [hx]

theorem clearEdge_flagged {g : Graph} {F s e} (he : e < g.eSize) :
    Random.clearEdgeVisited (flagged g F s) e = some (flagged g (Function.update F e (F e - (F e &&& 1))) s) := by
  have he' : e < (flagged g F s).eSize := he
  unfold Random.clearEdgeVisited rdE wrE
  simp only [he', if_true, Option.bind_eq_bind, Option.bind_some]
  congr 1
  unfold Test.flagged
  congr 1
  funext x
  simp only
  by_cases hx : x = e
  · subst hx; simp
  · simp [hx]

theorem edgeVisited_flagged {g : Graph} {F s e} (he : e < g.eSize) :
    edgeVisited (flagged g F s) e = some (decide (F e % 2 = 1)) := by
  have he' : e < (flagged g F s).eSize := he
  unfold edgeVisited rdE
  simp only [he', if_true, Option.bind_eq_bind, Option.bind_some]
  show some (decide ((F e) &&& 1 ≠ 0)) = _
  rw [Nat.and_one_is_mod]
  congr 1
  have := Nat.mod_two_eq_zero_or_one (F e)
  simp only [decide_eq_decide]
  omega

theorem push_flagged {g : Graph} {F s x} (h : s.length < g.stackCap) : (flagged g F s).push x = some (flagged g F (x :: s)) := by
  unfold push
  have h' : (flagged g F s).stack.length < (flagged g F s).stackCap := h
  rw [if_pos h']; rfl

/-- Arcs in the lists are those with a neighbour. -/
theorem live_nbr {g : Graph} {rot} (h : Inv g rot) {e : Nat} : (g.E e).nbr ≠ 0 ↔ ∃ u, e ∈ rot u := by
  constructor
  · intro hn
    by_contra hc
    push Not at hc
    rw [h.zero e hc] at hn
    exact hn rfl
  · rintro ⟨u, hu⟩
    have := (h.links.vert _ _ (h.twins u e hu)).1
    omega

theorem live_twin {g : Graph} {rot} (h : Inv g rot) {e : Nat} : (g.E (twin e)).nbr ≠ 0 ↔ (g.E e).nbr ≠ 0 := by
  rw [live_nbr h, live_nbr h]
  constructor
  · rintro ⟨u, hu⟩
    have := h.twins u _ hu
    rw [twin_twin] at this
    exact ⟨_, this⟩
  · rintro ⟨u, hu⟩
    exact ⟨_, h.twins u _ hu⟩

/-- The stack after looking at `k` edge slots. -/
def pushed (g : Graph) : Nat → List Nat
  | 0 => []
  | k + 1 => if (g.E (2 + 2 * k)).nbr ≠ 0 then twin (2 + 2 * k) :: (2 + 2 * k) :: pushed g k else pushed g k

theorem twin_even (k : Nat) : twin (2 + 2 * k) = 3 + 2 * k := by rw [twin_eq]; split <;> omega

theorem mem_pushed {g : Graph} {rot} (h : Inv g rot) (k e : Nat) :
    e ∈ pushed g k ↔ 2 ≤ e ∧ e < 2 + 2 * k ∧ ∃ u, e ∈ rot u := by
  induction k with
  | zero => simp [pushed]; omega
  | succ k ih =>
    unfold pushed
    have ht := twin_even k
    have hl := live_nbr h (e := 2 + 2 * k)
    have hl' := live_nbr h (e := twin (2 + 2 * k))
    have hlt := live_twin h (e := 2 + 2 * k)
    rw [← live_nbr h] at ih ⊢
    split
    · rename_i hn
      have hn' := hlt.2 hn
      simp only [List.mem_cons, ih]
      constructor
      · rintro (rfl | rfl | ⟨h1, h2, h3⟩)
        · exact ⟨by omega, by omega, hn'⟩
        · exact ⟨by omega, by omega, hn⟩
        · exact ⟨h1, by omega, h3⟩
      · rintro ⟨h1, h2, h3⟩
        rcases Nat.lt_or_ge e (2 + 2 * k) with h4 | h4
        · exact .inr (.inr ⟨h1, h4, h3⟩)
        · rcases (by omega : e = 2 + 2 * k ∨ e = 3 + 2 * k) with rfl | rfl
          · exact .inr (.inl rfl)
          · exact .inl ht.symm
    · rename_i hn
      rw [ih]
      constructor
      · rintro ⟨h1, h2, h3⟩; exact ⟨h1, by omega, h3⟩
      · rintro ⟨h1, h2, h3⟩
        refine ⟨h1, ?_, h3⟩
        by_contra h4
        rcases (by omega : e = 2 + 2 * k ∨ e = 3 + 2 * k) with rfl | rfl
        · exact hn h3
        · rw [← ht] at h3; exact hn (hlt.1 h3)

theorem nodup_pushed {g : Graph} {rot} (h : Inv g rot) (k : Nat) : (pushed g k).Nodup := by
  induction k with
  | zero => simp [pushed]
  | succ k ih =>
    unfold pushed
    have ht := twin_even k
    split
    · refine List.nodup_cons.2 ⟨?_, List.nodup_cons.2 ⟨?_, ih⟩⟩
      · intro hm
        rcases List.mem_cons.1 hm with hm | hm
        · omega
        · have := ((mem_pushed h k _).1 hm).2.1; omega
      · intro hm
        have := ((mem_pushed h k _).1 hm).2.1; omega
    · exact ih

theorem pushed_length_le {g : Graph} {rot} (h : Inv g rot) (k : Nat) : (pushed g k).length ≤ 2 * g.M := by
  rw [← h.count]
  exact ((nodup_pushed h k).subperm fun e he => (mem_allArcs h.links).2 ((mem_pushed h k e).1 he).2.2).length_le

theorem mem_pushed_all {g : Graph} {rot} (h : Inv g rot) (e : Nat) :
    e ∈ pushed g (g.M + g.holes.length) ↔ ∃ u, e ∈ rot u := by
  rw [mem_pushed h]
  constructor
  · exact fun hh => hh.2.2
  · rintro ⟨u, hu⟩
    have h1 := (h.links.arc u e hu).1
    have h2 := h.below u e hu
    have h3 : g.inUse = 2 + (g.M + g.holes.length) * 2 := rfl
    exact ⟨h1, by omega, u, hu⟩

theorem pushed_length {g : Graph} {rot} (h : Inv g rot) : (pushed g (g.M + g.holes.length)).length = 2 * g.M := by
  rw [← h.count]
  apply List.Perm.length_eq
  rw [List.perm_ext_iff_of_nodup (nodup_pushed h _) (nodup_allArcs h.links)]
  intro e
  rw [mem_pushed_all h, mem_allArcs h.links]

/-- All arcs are on the stack with their marks cleared. -/
theorem pushLoop_spec {g : Graph} {rot} (h : Inv g rot) (hcap : 2 * g.M ≤ g.stackCap) (k : Nat)
    (hk : k ≤ g.M + g.holes.length) :
    ∃ F, (List.range k).foldlM (fun g i => pushEdge g (2 + 2 * i)) g.clearStack = some (flagged g F (pushed g k)) ∧
      (∀ e, (∃ u, e ∈ rot u) → e < 2 + 2 * k → F e % 2 = 0) ∧ (∀ e, F e / 2 = (g.E e).flags / 2) ∧
      (∀ e, (¬ ∃ u, e ∈ rot u) → F e = (g.E e).flags) := by
  induction k with
  | zero =>
    refine ⟨fun e => (g.E e).flags, rfl, fun e he hlt => ?_, fun _ => rfl, fun _ _ => rfl⟩
    obtain ⟨u, hu⟩ := he
    have := (h.links.arc u e hu).1; omega
  | succ k ih =>
    obtain ⟨F, h1, h2, h3, h4⟩ := ih (by omega)
    rw [List.range_succ, List.foldlM_append, h1]
    have ht := twin_even k
    have hin : g.inUse = 2 + (g.M + g.holes.length) * 2 := rfl
    have hlt : 2 + 2 * k < g.eSize := by have := h.inUse_le; omega
    have hlt' : twin (2 + 2 * k) < g.eSize := by have := h.inUse_le; omega
    have hlt2 : 2 + 2 * k < (flagged g F (pushed g k)).eSize := hlt
    simp only [Option.bind_eq_bind, Option.bind_some, List.foldlM_cons, List.foldlM_nil]
    unfold pushEdge
    rw [getNbr_eq hlt2]
    simp only [Option.bind_eq_bind, Option.bind_some]
    by_cases hn : (g.E (2 + 2 * k)).nbr = 0
    · have hn2 : ((flagged g F (pushed g k)).E (2 + 2 * k)).nbr = 0 := hn
      simp only [hn2, ne_eq, not_true_eq_false, if_false, Option.bind_some]
      refine ⟨F, ?_, ?_, h3, h4⟩
      · rw [show pushed g (k + 1) = pushed g k by rw [pushed, if_neg (by simpa using hn)]]; rfl
      · intro e he hlt
        by_cases h5 : e < 2 + 2 * k
        · exact h2 e he h5
        · exfalso
          have hnb := (live_nbr h).2 he
          rcases (by omega : e = 2 + 2 * k ∨ e = 3 + 2 * k) with rfl | rfl
          · exact hnb hn
          · rw [← ht] at hnb; exact (live_twin h).1 hnb hn
    · have hn2 : ((flagged g F (pushed g k)).E (2 + 2 * k)).nbr ≠ 0 := hn
      have hlen := pushed_length_le h (k + 1)
      have hp : pushed g (k + 1) = twin (2 + 2 * k) :: (2 + 2 * k) :: pushed g k := by
        rw [pushed, if_pos hn]
      rw [hp] at hlen
      simp only [List.length_cons] at hlen
      simp only [ne_eq, hn2, not_false_eq_true, if_true]
      rw [push_flagged (by omega)]
      simp only [Option.bind_eq_bind, Option.bind_some]
      rw [clearEdge_flagged hlt]
      simp only [Option.bind_eq_bind, Option.bind_some]
      rw [push_flagged (by simp only [List.length_cons]; omega)]
      simp only [Option.bind_eq_bind, Option.bind_some]
      rw [clearEdge_flagged hlt']
      simp only [Option.bind_some]
      rw [hp]
      have hclr : ∀ f : Nat, (f - (f &&& 1)) % 2 = 0 ∧ (f - (f &&& 1)) / 2 = f / 2 := by
        intro f; rw [Nat.and_one_is_mod]; omega
      refine ⟨_, rfl, ?_, ?_, ?_⟩
      · intro e he hlt
        by_cases h6 : e = twin (2 + 2 * k)
        · subst h6; rw [Function.update_self]; exact (hclr _).1
        · rw [Function.update_of_ne h6]
          by_cases h7 : e = 2 + 2 * k
          · subst h7; rw [Function.update_self]; exact (hclr _).1
          · rw [Function.update_of_ne h7]
            exact h2 e he (by omega)
      · intro e
        by_cases h6 : e = twin (2 + 2 * k)
        · subst h6; rw [Function.update_self, (hclr _).2, Function.update_of_ne (twin_ne _)]
          exact h3 _
        · rw [Function.update_of_ne h6]
          by_cases h7 : e = 2 + 2 * k
          · subst h7; rw [Function.update_self, (hclr _).2]; exact h3 _
          · rw [Function.update_of_ne h7]; exact h3 _
      · intro e he
        rw [← live_nbr h] at he
        push Not at he
        have h6 : e ≠ twin (2 + 2 * k) := by
          rintro rfl
          exact (live_twin h).2 hn he
        have h7 : e ≠ 2 + 2 * k := by rintro rfl; exact hn he
        rw [Function.update_of_ne h6, Function.update_of_ne h7]
        exact h4 e (by rw [← live_nbr h]; simpa using he)

section
variable {g : Graph} {rot : Nat → List Nat} (h : WInv g rot)
include h

theorem dart_lt (d : Dart rot) : d.1 < g.eSize := by
  obtain ⟨u, hu⟩ := d.2
  exact (h.links.arc u _ hu).2

theorem nextCirc_flagged (F s) (d : Dart rot) : nextCirc (flagged g F s) (twin d.1) = some (ph h d).1 := by
  have := nextCirc_ph (WInv.flagged h F s) d
  exact this

/-- Powers that have not returned are bounded by the number of arcs. -/
theorem pow_bound (f : Perm (Dart rot)) (x : Dart rot) (j : Nat) (hj : ∀ i, 1 ≤ i → i ≤ j → (f ^ i) x ≠ x) :
    j < g.eSize := by
  have hinj : ∀ a b, a ≤ j → b ≤ j → a < b → (f ^ a) x ≠ (f ^ b) x := by
    intro a b ha hb hab he
    have : (f ^ b) x = (f ^ a) ((f ^ (b - a)) x) := by
      rw [← mul_apply, ← pow_add]; congr 2; omega
    rw [this] at he
    exact hj (b - a) (by omega) (by omega) ((f ^ a).injective he).symm
  have hnd : ((List.range (j + 1)).map fun i => ((f ^ i) x).1).Nodup := by
    refine List.Nodup.map_on ?_ List.nodup_range
    intro a ha b hb he
    rw [List.mem_range] at ha hb
    have he' := Subtype.ext he
    rcases Nat.lt_trichotomy a b with hh | hh | hh
    · exact absurd he' (hinj a b (by omega) (by omega) hh)
    · exact hh
    · exact absurd he'.symm (hinj b a (by omega) (by omega) hh)
  have := nodup_length_le hnd (n := g.eSize) (by
    intro y hy
    obtain ⟨i, _, rfl⟩ := List.mem_map.1 hy
    exact dart_lt h _)
  simpa using this

/-- The loop around a face marks exactly the face. -/
theorem faceLoop_spec (F0 : Nat → Nat) (s) (x : Dart rot) (hcl : ∀ d : Dart rot, SameCycle (ph h) x d → F0 d.1 % 2 = 0) :
    ∀ fuel j F, fuel + j = g.eSize → (∀ i, 1 ≤ i → i ≤ j → (ph h ^ i) x ≠ x) →
      (∀ e, F e / 2 = F0 e / 2) → (∀ e, F e % 2 = 1 ↔ F0 e % 2 = 1 ∨ ∃ i, 1 ≤ i ∧ i ≤ j ∧ ((ph h ^ i) x).1 = e) →
      ∃ F', faceLoop x.1 fuel ((ph h ^ j) x).1 (flagged g F s) = some (flagged g F' s, true) ∧ (∀ e, F' e / 2 = F0 e / 2) ∧
        (∀ e, F' e % 2 = 1 ↔ F0 e % 2 = 1 ∨ ∃ d : Dart rot, SameCycle (ph h) x d ∧ d.1 = e) := by
  intro fuel
  induction fuel with
  | zero =>
    intro j F hf hj
    have := pow_bound h (ph h) x j hj
    omega
  | succ fuel ih =>
    intro j F hf hj hF1 hF2
    unfold faceLoop
    rw [nextCirc_flagged h F s]
    simp only [Option.bind_eq_bind, Option.bind_some]
    rw [show ph h ((ph h ^ j) x) = (ph h ^ (j + 1)) x by rw [pow_succ', mul_apply]]
    rw [edgeVisited_flagged (dart_lt h _)]
    have hnot : ¬ F ((ph h ^ (j + 1)) x).1 % 2 = 1 := by
      intro hc
      rcases (hF2 _).1 hc with h1 | ⟨i, h1, h2, h3⟩
      · have := hcl ((ph h ^ (j + 1)) x) ⟨((j + 1 : ℕ) : ℤ), by rw [zpow_natCast]⟩
        omega
      · have h4 := Subtype.ext h3
        have h5 : (ph h ^ (j + 1)) x = (ph h ^ i) ((ph h ^ (j + 1 - i)) x) := by
          rw [← mul_apply, ← pow_add]; congr 2; omega
        rw [h5] at h4
        exact hj (j + 1 - i) (by omega) (by omega) ((ph h ^ i).injective h4).symm
    simp only [hnot, decide_false, Option.bind_some, Bool.false_eq_true, if_false]
    rw [setEdge_flagged (dart_lt h _)]
    simp only [Option.bind_some]
    have hset : ∀ f : Nat, (f ||| 1) % 2 = 1 ∧ (f ||| 1) / 2 = f / 2 := by
      intro f
      refine ⟨?_, by rw [Nat.or_div_two]; simp⟩
      have := Nat.or_mod_two_eq_one (a := f) (b := 1)
      simpa using this
    have hG1 : ∀ e, Function.update F ((ph h ^ (j + 1)) x).1 (F ((ph h ^ (j + 1)) x).1 ||| 1) e / 2 = F0 e / 2 := by
      intro e
      by_cases he : e = ((ph h ^ (j + 1)) x).1
      · subst he; rw [Function.update_self, (hset _).2]; exact hF1 _
      · rw [Function.update_of_ne he]; exact hF1 e
    have hG2 : ∀ e, Function.update F ((ph h ^ (j + 1)) x).1 (F ((ph h ^ (j + 1)) x).1 ||| 1) e % 2 = 1 ↔
        F0 e % 2 = 1 ∨ ∃ i, 1 ≤ i ∧ i ≤ j + 1 ∧ ((ph h ^ i) x).1 = e := by
      intro e
      by_cases he : e = ((ph h ^ (j + 1)) x).1
      · subst he; rw [Function.update_self]
        exact ⟨fun _ => .inr ⟨j + 1, by omega, le_rfl, rfl⟩, fun _ => (hset _).1⟩
      · rw [Function.update_of_ne he, hF2]
        constructor
        · rintro (h1 | ⟨i, h1, h2, h3⟩)
          · exact .inl h1
          · exact .inr ⟨i, h1, by omega, h3⟩
        · rintro (h1 | ⟨i, h1, h2, h3⟩)
          · exact .inl h1
          · rcases Nat.lt_or_ge j i with h4 | h4
            · have : i = j + 1 := by omega
              subst this; exact absurd h3.symm he
            · exact .inr ⟨i, h1, h4, h3⟩
    by_cases hend : (ph h ^ (j + 1)) x = x
    · have : ¬ ((ph h ^ (j + 1)) x).1 ≠ x.1 := by rw [hend]; simp
      rw [if_neg this]
      refine ⟨_, rfl, hG1, fun e => (hG2 e).trans (or_congr Iff.rfl ⟨?_, ?_⟩)⟩
      · rintro ⟨i, _, _, h3⟩
        exact ⟨_, ⟨(i : ℤ), by rw [zpow_natCast]⟩, h3⟩
      · rintro ⟨d, hd, rfl⟩
        haveI := dart_finite h
        obtain ⟨n, hn⟩ := SameCycle.exists_nat_pow_eq hd
        have hmod : ∀ n, (ph h ^ n) x = (ph h ^ (n % (j + 1))) x := by
          intro n
          induction n using Nat.strong_induction_on with
          | _ n ih2 =>
            rcases Nat.lt_or_ge n (j + 1) with h1 | h1
            · rw [Nat.mod_eq_of_lt h1]
            · have h2 : (ph h ^ n) x = (ph h ^ (n - (j + 1))) ((ph h ^ (j + 1)) x) := by
                rw [← mul_apply, ← pow_add]; congr 2; omega
              rw [h2, hend, ih2 _ (by omega), Nat.mod_eq_sub_mod h1]
        rw [hmod] at hn
        rcases Nat.eq_zero_or_pos (n % (j + 1)) with h1 | h1
        · rw [h1] at hn
          refine ⟨j + 1, by omega, le_rfl, ?_⟩
          rw [hend, ← hn]; rfl
        · have := Nat.mod_lt n (show j + 1 > 0 by omega)
          exact ⟨n % (j + 1), h1, by omega, by rw [hn]⟩
    · have : ((ph h ^ (j + 1)) x).1 ≠ x.1 := fun hc => hend (Subtype.ext hc)
      rw [if_pos this]
      refine ih (j + 1) _ (by omega) ?_ hG1 hG2
      intro i h1 h2
      rcases Nat.lt_or_ge j i with h3 | h3
      · have : i = j + 1 := by omega
        subst this; exact hend
      · exact hj i h1 h3

/-- The loop over all arcs counts the faces. -/
theorem facesLoop_spec (F0 : Nat → Nat) : ∀ (s : List Nat) (fuel : Nat) (F : Nat → Nat) (R : List (Dart rot)),
    s.length ≤ fuel → (∀ e ∈ s, ∃ u, e ∈ rot u) → R.Pairwise (fun a b => ¬ SameCycle (ph h) a b) →
    (∀ e, F e / 2 = F0 e / 2) →
    (∀ d : Dart rot, F d.1 % 2 = 1 ↔ ∃ r ∈ R, SameCycle (ph h) r d) → (∀ d : Dart rot, d.1 ∈ s ∨ F d.1 % 2 = 1) →
    (∀ e, (¬ ∃ u, e ∈ rot u) → F e = F0 e) →
    ∃ (F' : Nat → Nat) (R' : List (Dart rot)), facesLoop fuel R.length (flagged g F s) = some (flagged g F' [], R'.length, true) ∧
      R'.Pairwise (fun a b => ¬ SameCycle (ph h) a b) ∧ (∀ d, ∃ r ∈ R', SameCycle (ph h) r d) ∧ (∀ e, F' e / 2 = F0 e / 2) ∧
      (∀ e, (¬ ∃ u, e ∈ rot u) → F' e = F0 e) := by
  intro s
  induction s with
  | nil =>
    intro fuel F R _ _ hR hF hV hall hz
    refine ⟨F, R, ?_, hR, fun d => (hV d).1 ((hall d).resolve_left (by simp)), hF, hz⟩
    cases fuel <;> simp [facesLoop, flagged]
  | cons e s ih =>
    intro fuel F R hfuel hs hR hF hV hall hz
    cases fuel with
    | zero => simp at hfuel
    | succ fuel =>
      simp only [List.length_cons] at hfuel
      let x : Dart rot := ⟨e, hs e (by simp)⟩
      unfold facesLoop
      have hne : ¬ (flagged g F (e :: s)).stack = [] := by simp [flagged]
      rw [if_neg hne]
      have hpop : (flagged g F (e :: s)).pop = some (e, flagged g F s) := rfl
      rw [hpop]
      simp only [Option.bind_eq_bind, Option.bind_some]
      rw [edgeVisited_flagged (dart_lt h x)]
      simp only [Option.bind_some]
      by_cases hv : F e % 2 = 1
      · have hv' : F x.1 % 2 = 1 := hv
        simp only [hv', decide_true, if_true]
        refine ih fuel F R (by omega) (fun a ha => hs a (by simp [ha])) hR hF hV ?_ hz
        intro d
        rcases hall d with h1 | h1
        · rcases List.mem_cons.1 h1 with h2 | h2
          · right; rw [h2]; exact hv
          · exact .inl h2
        · exact .inr h1
      · have hv' : ¬ F x.1 % 2 = 1 := hv
        simp only [hv', decide_false, Bool.false_eq_true, if_false]
        have hx : ¬ ∃ r ∈ R, SameCycle (ph h) r x := fun hc => hv ((hV x).2 hc)
        obtain ⟨F', h1, h2, h3⟩ := faceLoop_spec h F s x (by
          intro d hd
          by_contra hc
          obtain ⟨r, hr, hr2⟩ := (hV d).1 (by omega)
          exact hx ⟨r, hr, hr2.trans hd.symm⟩) g.eSize 0 F (by omega) (by omega) (fun _ => rfl)
            (fun e => by constructor; exact .inl; rintro (h1 | ⟨i, h1, h2, _⟩); exact h1; omega)
        have h1' : faceLoop e (flagged g F s).eSize e (flagged g F s) = some (flagged g F' s, true) := h1
        rw [h1']
        simp only [Option.bind_some, if_true]
        refine ih fuel F' (x :: R) (by omega) (fun a ha => hs a (by simp [ha])) ?_ (fun e => by rw [h2, hF]) ?_ ?_ ?_
        · refine List.pairwise_cons.2 ⟨fun b hb hc => hx ⟨b, hb, hc.symm⟩, hR⟩
        · intro d
          rw [h3 d.1, hV d]
          constructor
          · rintro (⟨r, hr, hr2⟩ | ⟨d', hd', he⟩)
            · exact ⟨r, by simp [hr], hr2⟩
            · exact ⟨x, by simp, by rwa [Subtype.ext he] at hd'⟩
          · rintro ⟨r, hr, hr2⟩
            rcases List.mem_cons.1 hr with rfl | hr
            · exact .inr ⟨d, hr2, rfl⟩
            · exact .inl ⟨r, hr, hr2⟩
        · intro d
          rcases hall d with h4 | h4
          · rcases List.mem_cons.1 h4 with h5 | h5
            · right
              rw [h3]
              exact .inr ⟨x, SameCycle.refl _ _, h5.symm⟩
            · exact .inl h5
          · right
            rw [h3]; exact .inl h4
        · intro a ha
          have h5 : F' a % 2 = F a % 2 := by
            by_cases h6 : F' a % 2 = 1
            · rcases (h3 a).1 h6 with h7 | ⟨d, _, rfl⟩
              · omega
              · exact absurd d.2 ha
            · have : ¬ F a % 2 = 1 := fun hc => h6 ((h3 a).2 (.inl hc))
              omega
          have h8 := h2 a
          rw [← hz a ha]; omega

end

end Test
end Verif
