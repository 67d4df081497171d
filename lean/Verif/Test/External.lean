import Verif.Test.Facial

/-
What `_CheckAllVerticesOnExternalFace` computes.
-/
namespace Verif
namespace Test
open Graph Map Equiv Equiv.Perm Props DFS

section
variable {g : Graph} {rot : Nat → List Nat} (h : WInv g rot)
include h

theorem nextCirc_relabel (F) (d : Dart rot) : nextCirc (g.relabel F) (twin d.1) = some (ph h d).1 :=
  nextCirc_ph (WInv.relabel h F) d

theorem last_eq {v : Nat} (hv : v < g.vSize) : g.getArc v true = some ((rot v).reverse.headD 0) := by
  rw [getArc_eq hv, h.links.vlink v true hv]; rfl

/-- The dart of the first arc of a vertex. -/
theorem last_iff {v : Nat} {x : Dart rot} (hx : (rot v).head? = some x.1) (d : Dart rot) :
    twin d.1 = (rot v).reverse.headD 0 ↔ ph h d = x := by
  have hxm : x.1 ∈ rot v := List.mem_of_head? hx
  have hpos : 0 < (rot v).length := List.length_pos_of_mem hxm
  have hl : (rot v).reverse.headD 0 = (rot v)[(rot v).length - 1] := by
    rw [List.headD_eq_head?_getD, List.head?_reverse, List.getLast?_eq_getElem?, List.getElem?_eq_getElem (by omega)]
    rfl
  have hx0 : x = ⟨(rot v)[0], v, List.getElem_mem hpos⟩ := by
    apply Subtype.ext
    rw [List.head?_eq_getElem?, List.getElem?_eq_getElem hpos] at hx
    exact (Option.some.inj hx).symm
  have hs : sg h ⟨(rot v)[(rot v).length - 1], v, List.getElem_mem (by omega)⟩ = x := by
    apply Subtype.ext
    rw [sg_get h (by omega), hx0]
    have : ((rot v).length - 1 + 1) % (rot v).length = 0 := by
      rw [show (rot v).length - 1 + 1 = (rot v).length by omega, Nat.mod_self]
    simp only [this]
  rw [hl]
  constructor
  · intro he
    have : al h d = ⟨(rot v)[(rot v).length - 1], v, List.getElem_mem (by omega)⟩ := Subtype.ext he
    show sg h (al h d) = x
    rw [this, hs]
  · intro he
    have h1 : sg h (al h d) = x := he
    rw [← hs] at h1
    exact congrArg Subtype.val ((sg h).injective h1)

theorem markFaceLoop_spec {v0 : Nat} (hv0 : v0 < g.vSize) {x : Dart rot} (hx : (rot v0).head? = some x.1)
    (F0 : Nat → Nat → Nat) :
    ∀ fuel j (F : Nat → Nat → Nat), fuel + j = g.eSize → (∀ i, 1 ≤ i → i ≤ j → (ph h ^ i) x ≠ x) →
      (∀ w f, F w f / 2 = f / 2) →
      (∀ w f, F w f % 2 = 1 ↔ F0 w f % 2 = 1 ∨ ∃ i, i < j ∧ own g ((ph h ^ i) x) = w) →
      ∃ F' : Nat → Nat → Nat, markFaceLoop v0 fuel (own g ((ph h ^ j) x)) ((ph h ^ j) x).1 (g.relabel F) = some (g.relabel F') ∧
        (∀ w f, F' w f / 2 = f / 2) ∧
        (∀ w f, F' w f % 2 = 1 ↔ F0 w f % 2 = 1 ∨ ∃ d : Dart rot, SameCycle (ph h) x d ∧ own g d = w) := by
  intro fuel
  induction fuel with
  | zero =>
    intro j F hf hj
    have := pow_bound h (ph h) x j hj
    omega
  | succ fuel ih =>
    intro j F hf hj hF hF2
    have hm := own_mem h ((ph h ^ j) x)
    have hvx := (h.links.vert _ _ hm).2
    unfold markFaceLoop
    rw [setVisited_eq (show own g ((ph h ^ j) x) < (g.relabel F).vSize from hvx)]
    simp only [Option.bind_eq_bind, Option.bind_some]
    rw [relabel_relabel, getNbr_relabel, getNbr_eq (dart_lt h _)]
    simp only [Option.bind_some]
    rw [nextCirc_relabel h]
    simp only [Option.bind_some]
    rw [last_eq (WInv.relabel h _) hv0]
    simp only [Option.bind_some]
    have hnext : ph h ((ph h ^ j) x) = (ph h ^ (j + 1)) x := by rw [pow_succ', mul_apply]
    have hown : (g.E ((ph h ^ j) x).1).nbr = own g ((ph h ^ (j + 1)) x) := by
      rw [← hnext]
      show _ = own g (sg h (al h _))
      rw [own_sg, own_al]
    have hiff := last_iff h hx ((ph h ^ j) x)
    rw [hnext] at hiff
    have hG : ∀ w f, (if w = own g ((ph h ^ j) x) then F w f / 2 * 2 + 1 else F w f) / 2 = f / 2 := by
      intro w f
      have := hF w f
      split <;> omega
    have hG2 : ∀ w f, (if w = own g ((ph h ^ j) x) then F w f / 2 * 2 + 1 else F w f) % 2 = 1 ↔
        F0 w f % 2 = 1 ∨ ∃ i, i < j + 1 ∧ own g ((ph h ^ i) x) = w := by
      intro w f
      by_cases hw : w = own g ((ph h ^ j) x)
      · rw [if_pos hw]
        exact ⟨fun _ => .inr ⟨j, by omega, hw.symm⟩, fun _ => by omega⟩
      · rw [if_neg hw, hF2]
        constructor
        · rintro (h1 | ⟨i, h1, h2⟩)
          · exact .inl h1
          · exact .inr ⟨i, by omega, h2⟩
        · rintro (h1 | ⟨i, h1, h2⟩)
          · exact .inl h1
          · rcases Nat.lt_or_ge i j with h3 | h3
            · exact .inr ⟨i, h3, h2⟩
            · have : i = j := by omega
              subst this
              exact absurd h2.symm hw
    by_cases hend : (ph h ^ (j + 1)) x = x
    · have h1 := hiff.2 hend
      rw [if_neg (by simp [h1])]
      have hmod : ∀ n, ∃ i, i < j + 1 ∧ (ph h ^ n) x = (ph h ^ i) x := by
        intro n
        induction n with
        | zero => exact ⟨0, by omega, rfl⟩
        | succ n ih2 =>
          obtain ⟨i, hi, he⟩ := ih2
          rw [pow_succ', mul_apply, he]
          rcases Nat.lt_or_ge i j with h2 | h2
          · exact ⟨i + 1, by omega, by rw [pow_succ', mul_apply]⟩
          · have : i = j := by omega
            subst this
            rw [hnext, hend]
            exact ⟨0, by omega, rfl⟩
      refine ⟨_, rfl, hG, fun w f => (hG2 w f).trans (or_congr Iff.rfl ⟨?_, ?_⟩)⟩
      · rintro ⟨i, _, h3⟩
        exact ⟨_, ⟨(i : ℤ), by rw [zpow_natCast]⟩, h3⟩
      · rintro ⟨d, hd, rfl⟩
        have := dart_finite h
        obtain ⟨n, rfl⟩ := SameCycle.exists_nat_pow_eq hd
        obtain ⟨i, hi, he⟩ := hmod n
        exact ⟨i, hi, by rw [he]⟩
    · have : twin ((ph h ^ j) x).1 ≠ (rot v0).reverse.headD 0 := fun hc => hend (hiff.1 hc)
      rw [if_pos this, hown, hnext]
      refine ih (j + 1) _ (by omega) ?_ hG hG2
      intro i h1 h2
      rcases Nat.lt_or_ge j i with h3 | h3
      · have : i = j + 1 := by omega
        subst this; exact hend
      · exact hj i h1 h3

/-- `w` is on the facial walk of the first arc of `v`, or is `v` itself without arcs. -/
def OnFirstFace (v w : Nat) : Prop :=
  (rot v = [] ∧ w = v) ∨ ∃ x d : Dart rot, (rot v).head? = some x.1 ∧ SameCycle (ph h) x d ∧ own g d = w

theorem markFace_spec {v : Nat} (hv : v < g.vSize) {F : Nat → Nat → Nat} (hF : ∀ w f, F w f / 2 = f / 2) :
    ∃ F' : Nat → Nat → Nat, markFace (g.relabel F) v = some (g.relabel F') ∧ (∀ w f, F' w f / 2 = f / 2) ∧
      (∀ w f, F' w f % 2 = 1 ↔ F w f % 2 = 1 ∨ OnFirstFace h v w) := by
  unfold markFace
  rw [first_eq (WInv.relabel h F) hv]
  simp only [Option.bind_eq_bind, Option.bind_some]
  cases hr : rot v with
  | nil =>
    simp only [List.headD_nil, if_true]
    rw [setVisited_eq (show v < (g.relabel F).vSize from hv)]
    rw [relabel_relabel]
    refine ⟨_, rfl, ?_, ?_⟩
    · intro w f
      have := hF w f
      split <;> omega
    · intro w f
      have hof : OnFirstFace h v w ↔ w = v := by
        unfold OnFirstFace
        constructor
        · rintro (⟨_, h2⟩ | ⟨x, d, h1, _⟩)
          · exact h2
          · rw [hr] at h1; cases h1
        · exact fun h2 => .inl ⟨hr, h2⟩
      rw [hof]
      by_cases hw : w = v
      · rw [if_pos hw]; exact ⟨fun _ => .inr hw, fun _ => by omega⟩
      · rw [if_neg hw]; exact ⟨.inl, fun hh => hh.resolve_right hw⟩
  | cons e K =>
    have he : e ∈ rot v := by rw [hr]; simp
    have he0 : e ≠ 0 := by have := (h.links.arc v e he).1; omega
    simp only [List.headD_cons, he0, if_false]
    let x : Dart rot := ⟨e, v, he⟩
    have hx : (rot v).head? = some x.1 := by rw [hr]; rfl
    obtain ⟨F', h1, h2, h3⟩ := markFaceLoop_spec h hv hx F g.eSize 0 F (by omega) (by omega) hF
      (fun w f => ⟨.inl, by rintro (h1 | ⟨i, h1, _⟩); exact h1; omega⟩)
    rw [pow_zero, one_apply] at h1
    have hox : own g x = v := own_eq h he
    rw [hox] at h1
    refine ⟨F', h1, h2, fun w f => (h3 w f).trans (or_congr Iff.rfl ⟨?_, ?_⟩)⟩
    · rintro ⟨d, hd, ho⟩
      exact .inr ⟨x, d, hx, hd, ho⟩
    · rintro (⟨hc, _⟩ | ⟨y, d, hy, hd, ho⟩)
      · rw [hr] at hc; cases hc
      · rw [hx] at hy
        have : x = y := Subtype.ext (Option.some.inj hy)
        subst this
        exact ⟨d, hd, ho⟩

end

theorem relabel_setG (s : PGraph) (F G) : (s.setG (s.g.relabel F)).setG ((s.g.relabel F).relabel G) = s.setG ((s.g.relabel F).relabel G) := rfl

theorem checkExternal_spec {s : PGraph} {rot} (h : PInv s rot) :
    ∃ (F : Nat → Nat → Nat) (r : Res), checkExternal s = some (s.setG (s.g.relabel F), r) ∧ (∀ w f, F w f / 2 = f / 2) ∧
      (r = .ok ∨ r = .notok) ∧
      (r = .ok ↔ ∀ w, IsPrimary s w → ∃ v, v ∈ rootList s ∧ OnFirstFace h.inv.weak v w) := by
  classical
  have key : ∀ k, k ≤ s.g.N → ∀ F0 : Nat → Nat → Nat, (∀ w f, F0 w f / 2 = f / 2) →
      ∃ F : Nat → Nat → Nat, (List.range k).foldlM
        (fun s i => do if (← s.getParent (i + 1)) = 0 then return s.setG (← markFace s.g (i + 1)) else return s)
        (s.setG (s.g.relabel F0)) = some (s.setG (s.g.relabel F)) ∧ (∀ w f, F w f / 2 = f / 2) ∧
        (∀ w f, F w f % 2 = 1 ↔ F0 w f % 2 = 1 ∨ ∃ v, v ≤ k ∧ v ∈ rootList s ∧ OnFirstFace h.inv.weak v w) := by
    intro k
    induction k with
    | zero =>
      intro _ F0 hF0
      refine ⟨F0, rfl, hF0, fun w f => ⟨.inl, ?_⟩⟩
      rintro (h1 | ⟨v, h1, h2, _⟩)
      · exact h1
      · have := (mem_rootList.1 h2).1.1; omega
    | succ k ih =>
      intro hk F0 hF0
      obtain ⟨F, h1, h2, h3⟩ := ih (by omega) F0 hF0
      rw [List.range_succ, List.foldlM_append, h1]
      simp only [Option.bind_eq_bind, Option.bind_some, List.foldlM_cons, List.foldlM_nil]
      have hp : (s.setG (s.g.relabel F)).getParent (k + 1) = some (s.VI (k + 1)).parent :=
        getParent_eq (s := s.setG (s.g.relabel F)) hk
      rw [hp]
      simp only [Option.bind_some]
      by_cases h0 : (s.VI (k + 1)).parent = 0
      · have hroot : k + 1 ∈ rootList s :=
          mem_rootList.2 ⟨⟨by omega, hk⟩, by rw [getParent_eq hk, h0]⟩
        rw [if_pos h0]
        obtain ⟨F', f1, f2, f3⟩ := markFace_spec h.inv.weak (v := k + 1) (by unfold vSize; omega) h2
        have f1' : markFace (s.setG (s.g.relabel F)).g (k + 1) = some (s.g.relabel F') := f1
        rw [f1']
        refine ⟨F', rfl, f2, fun w f => ?_⟩
        rw [f3, h3]
        constructor
        · rintro ((h4 | ⟨v, h4, h5, h6⟩) | h4)
          · exact .inl h4
          · exact .inr ⟨v, by omega, h5, h6⟩
          · exact .inr ⟨k + 1, le_rfl, hroot, h4⟩
        · rintro (h4 | ⟨v, h4, h5, h6⟩)
          · exact .inl (.inl h4)
          · rcases Nat.lt_or_ge k v with h7 | h7
            · have : v = k + 1 := by omega
              subst this; exact .inr h6
            · exact .inl (.inr ⟨v, h7, h5, h6⟩)
      · rw [if_neg h0]
        refine ⟨F, rfl, h2, fun w f => (h3 w f).trans (or_congr Iff.rfl ⟨?_, ?_⟩)⟩
        · rintro ⟨v, h4, h5, h6⟩; exact ⟨v, by omega, h5, h6⟩
        · rintro ⟨v, h4, h5, h6⟩
          refine ⟨v, ?_, h5, h6⟩
          rcases Nat.lt_or_ge k v with h7 | h7
          · have : v = k + 1 := by omega
            subst this
            have := (mem_rootList.1 h5).2
            rw [getParent_eq hk] at this
            exact absurd (Option.some.inj this) h0
          · exact h7
  have hall : ∀ (g : Graph) k, k ≤ g.N → ∀ b : Bool,
      (List.range k).foldlM (fun (ok : Bool) i => do return ok && (← g.visited (i + 1))) b =
        some (b && decide (∀ w, 1 ≤ w → w ≤ k → (g.V w).flags % 2 = 1)) := by
    intro g k
    induction k with
    | zero =>
      intro _ b
      have : (∀ w, 1 ≤ w → w ≤ 0 → (g.V w).flags % 2 = 1) := by omega
      cases b
      · rfl
      · refine congrArg some ?_
        rw [Bool.true_and]
        exact (@decide_eq_true _ (Classical.propDecidable _) this).symm
    | succ k ih =>
      intro hk b
      rw [List.range_succ, List.foldlM_append, ih (by omega)]
      have hv : g.visited (k + 1) = some (decide ((g.V (k + 1)).flags % 2 = 1)) := by
        unfold visited rdV
        rw [if_pos (by unfold vSize; omega)]; rfl
      simp only [Option.bind_eq_bind, Option.bind_some, List.foldlM_cons, List.foldlM_nil, hv]
      show some _ = some _
      congr 1
      rw [Bool.and_assoc, ← Bool.decide_and]
      congr 1
      rw [decide_eq_decide]
      constructor
      · rintro ⟨h1, h2⟩ w h3 h4
        rcases Nat.lt_or_ge k w with h5 | h5
        · have : w = k + 1 := by omega
          subst this; exact h2
        · exact h1 w h3 h5
      · intro h1
        exact ⟨fun w h2 h3 => h1 w h2 (by omega), h1 _ (by omega) le_rfl⟩
  let F0 : Nat → Nat → Nat := fun w f => if 1 ≤ w ∧ w ≤ s.g.N then f / 2 * 2 else f
  have hclr : s.g.clearVisitedAll = some (s.g.relabel F0) := clearVisitedAll_eq s.g
  have hF0 : ∀ w f, F0 w f / 2 = f / 2 := by
    intro w f; simp only [F0]; split <;> omega
  obtain ⟨F, h1, h2, h3⟩ := key s.g.N le_rfl F0 hF0
  unfold checkExternal
  rw [hclr]
  simp only [Option.bind_eq_bind, Option.bind_some]
  simp only [Option.bind_eq_bind] at h1
  rw [h1]
  simp only [Option.bind_some]
  have hN : (s.setG (s.g.relabel F)).g.N = s.g.N := rfl
  have hal := hall (s.g.relabel F) s.g.N le_rfl true
  simp only [Option.bind_eq_bind] at hal
  have hal' : List.foldlM (fun (ok : Bool) i => ((s.setG (s.g.relabel F)).g.visited (i + 1)).bind fun b => pure (ok && b)) true
      (List.range (s.setG (s.g.relabel F)).g.N) = _ := hal
  rw [hal']
  refine ⟨F, _, rfl, h2, ?_, ?_⟩
  · cases (true && decide (∀ w, 1 ≤ w → w ≤ s.g.N → ((s.g.relabel F).V w).flags % 2 = 1))
    · exact .inr rfl
    · exact .inl rfl
  · have hiff : (∀ w, 1 ≤ w → w ≤ s.g.N → ((s.g.relabel F).V w).flags % 2 = 1) ↔
        ∀ w, IsPrimary s w → ∃ v, v ∈ rootList s ∧ OnFirstFace h.inv.weak v w := by
      constructor
      · intro hh w hw
        have h4 : F w (s.g.V w).flags % 2 = 1 := hh w hw.1 hw.2
        rcases (h3 _ _).1 h4 with h5 | ⟨v, _, h5⟩
        · exfalso
          simp only [F0] at h5
          rw [if_pos ⟨hw.1, hw.2⟩] at h5
          omega
        · exact ⟨v, h5⟩
      · intro hh w h5 h6
        show F w (s.g.V w).flags % 2 = 1
        rw [h3]
        obtain ⟨v, h7, h8⟩ := hh w ⟨h5, h6⟩
        exact .inr ⟨v, (mem_rootList.1 h7).1.2, h7, h8⟩
    rw [← hiff]
    by_cases hc : ∀ w, 1 ≤ w → w ≤ s.g.N → ((s.g.relabel F).V w).flags % 2 = 1
    · simp [hc]
    · simp [hc]

end Test
end Verif
