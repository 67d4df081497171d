import Verif.Graph.Identify

/-
Helper lemmas for the list union in `_IdentifyVertices` and its undoing in `_RestoreVertex`.
-/
namespace Verif
open Function

theorem nextIn_app_end {P X : List Nat} {e : Nat} (he : e ∈ P) (hn : P.Nodup) (h0 : 0 ∉ P) :
    nextIn (P ++ X) e = if e = endIn true P then X.headD 0 else nextIn P e := by
  rw [nextIn_append_left he h0]
  have := nextIn_eq_zero_iff hn h0 he
  by_cases h : e = endIn true P
  · rw [if_pos h, if_pos (this.2 h.symm)]
  · rw [if_neg h, if_neg (fun hh => h (this.1 hh).symm)]

theorem endIn_dir (b : Bool) (L : List Nat) : endIn true (dir b L) = endIn (!b) L := by
  cases b <;> simp [endIn]

/-- The part of `A ++ B` read first in direction `b`. -/
def side (b : Bool) (A B : List Nat) : List Nat := if b then B else A

theorem dir_append3 (b : Bool) (A K B : List Nat) :
    dir b (A ++ K ++ B) = dir b (side b A B) ++ (dir b K ++ dir b (side (!b) A B)) := by
  cases b <;> simp [side]
theorem dir_append2 (b : Bool) (A B : List Nat) :
    dir b (A ++ B) = dir b (side b A B) ++ dir b (side (!b) A B) := by
  cases b <;> simp [side]
theorem mem_side {b A B} {a : Nat} : a ∈ side b A B → a ∈ A ++ B := by
  cases b <;> simp [side] <;> intro h <;> simp [h]

namespace Graph

theorem retargetLoop_spec {rot : Nat → List Nat} {v u : Nat} : ∀ (K A : List Nat) (fuel : Nat) {g : Graph},
    Links g rot → rot v = A ++ K → (∀ e ∈ K, twin e < g.eSize) → K.length ≤ fuel →
    retargetLoop fuel g u (K.headD 0) =
      some { g with E := fun a => if twin a ∈ K then { g.E a with nbr := u } else g.E a } := by
  intro K
  induction K with
  | nil => intro A fuel g _ _ _ _; cases fuel <;> simp [retargetLoop]
  | cons e K ih =>
    intro A fuel g h hr htw hf
    obtain ⟨fuel, rfl⟩ : ∃ f, fuel = f + 1 := ⟨fuel - 1, by simp at hf; omega⟩
    have har := h.arc v e (by rw [hr]; simp)
    rw [retargetLoop, List.headD_cons, if_neg (by omega), setNbr_eq (htw e (by simp))]
    simp only [Option.bind_eq_bind, Option.bind_some]
    have h' : Links (g.updE (twin e) fun r => { r with nbr := u }) rot :=
      h.congr (g' := g.updE (twin e) fun r => { r with nbr := u }) rfl rfl
        (fun a b => by rw [updE_E]; split <;> cases b <;> rfl) (fun _ _ => rfl)
    rw [next_eq h' hr, Option.bind_some,
      ih (A ++ [e]) fuel h' (by simp [hr]) (fun a ha => htw a (by simp [ha])) (by simp at hf; omega)]
    congr 1
    show Graph.mk _ _ _ _ _ _ _ _ _ _ = Graph.mk _ _ _ _ _ _ _ _ _ _
    congr 1
    funext a
    rw [updE_E]
    by_cases h1 : twin a = e
    · rw [if_pos (twin_eq_iff.1 h1), if_pos (show twin a ∈ e :: K by simp [h1])]
      split <;> rfl
    · rw [if_neg (fun hh => h1 (twin_eq_iff.2 hh))]
      simp only [List.mem_cons, h1, false_or]

/-- Link fields after the list union. -/
theorem splice_spec {g rot} (h : Links g rot) {u v : Nat} {A K B : List Nat} (huv : u ≠ v)
    (hu : u < g.vSize) (hv : v < g.vSize) (hru : rot u = A ++ B) (hrv : rot v = K) (hK : K ≠ []) :
    ∃ g', g.splice u v (endIn true A) (endIn false B) = some g' ∧ SameBut g g' ∧
      (∀ a b, a ≠ 0 → (g'.E a).link b = if a = endIn (!b) (side b A B) then endIn b K
        else if a = endIn (!b) K then endIn b (side (!b) A B) else (g.E a).link b) ∧
      (∀ w b, (g'.V w).link b = if w = v then 0 else if w = u ∧ side b A B = [] then endIn b K
        else (g.V w).link b) ∧ g'.E 0 = g.E 0 := by
  have h0K : 0 ∉ K := hrv ▸ h.zero_not_mem v
  have h0u := h.zero_not_mem u
  rw [hru, List.mem_append, not_or] at h0u
  have hz : ∀ b, endIn b K ≠ 0 := fun b hh => hK ((endIn_zero_iff h0K).1 hh)
  have hmem : ∀ b, endIn b K ∈ rot v := fun b => by rw [hrv]; exact endIn_mem (hz b)
  have hlt : ∀ b, endIn b K < g.eSize := fun b => (h.arc _ _ (hmem b)).2
  have hends : ∀ b, (g.E (endIn b K)).link (!b) = 0 := by
    intro b
    rw [h.elink v (!b) _ (hmem b), hrv, nextIn_eq_zero_iff (nodup_dir (hrv ▸ h.nodup v))
      (fun hh => h0K (mem_dir.1 hh)) (mem_dir.2 (endIn_mem (hz b)))]
    cases b <;> simp [endIn]
  have hdis : ∀ a, a ∈ A ++ B → ∀ b, a ≠ endIn b K := by
    intro a ha b hh
    exact huv (h.disj u v a (hru ▸ ha) (hh ▸ hmem b))
  have hAB : ∀ a, a ∈ A → a ∉ B := by
    intro a ha hb
    have := h.nodup u
    rw [hru] at this
    exact (List.nodup_append.1 this).2.2 a ha a hb rfl
  have hfv : (g.V v).link false = endIn false K := by rw [h.vlink v false hv, hrv]
  have hlv : (g.V v).link true = endIn true K := by rw [h.vlink v true hv, hrv]
  have hA' : A = [] ∨ (endIn true A ≠ 0 ∧ endIn true A ∈ A) := by
    rcases eq_or_ne A [] with hh | hh
    · exact .inl hh
    · have : endIn true A ≠ 0 := fun hz => hh ((endIn_zero_iff h0u.1).1 hz)
      exact .inr ⟨this, endIn_mem this⟩
  have hB' : B = [] ∨ (endIn false B ≠ 0 ∧ endIn false B ∈ B) := by
    rcases eq_or_ne B [] with hh | hh
    · exact .inl hh
    · have : endIn false B ≠ 0 := fun hz => hh ((endIn_zero_iff h0u.2).1 hz)
      exact .inr ⟨this, endIn_mem this⟩
  unfold splice
  rw [getArc_eq hv, hfv]
  simp only [Option.bind_eq_bind, Option.bind_some]
  rw [if_pos (hz false)]
  -- first half: pred
  obtain ⟨g1, hg1, hs1, hz1, hE1, hV1⟩ : ∃ g1, g.splicePred u (endIn true A) (endIn false K) = some g1 ∧ SameBut g g1 ∧ g1.E 0 = g.E 0 ∧
      (∀ a b, a ≠ 0 → (g1.E a).link b = if b = false ∧ a = endIn true A then endIn false K
        else if b = true ∧ a = endIn false K then endIn true A else (g.E a).link b) ∧
      (∀ w b, (g1.V w).link b = if b = false ∧ w = u ∧ A = [] then endIn false K
        else (g.V w).link b) := by
    rcases hA' with rfl | ⟨hne, hin⟩
    · refine ⟨_, ?_, sameBut_setLinkV g u false (endIn false K), rfl, ?_, ?_⟩
      · rw [splicePred, if_neg (by simp [endIn]), setArc_eq hu]
      · intro a b ha
        rw [updV_E]
        rw [if_neg (by simp [endIn, ha])]
        split
        · next hh => rw [hh.1, hh.2]; exact hends false
        · rfl
      · intro w b
        rw [updV_V]
        by_cases hw : w = u <;> cases b <;> simp [hw]
    · have hlA : endIn true A < g.eSize := (h.arc u _ (by rw [hru]; simp [hin])).2
      refine ⟨_, ?_, (sameBut_setLinkE g (endIn true A) false (endIn false K)).trans
        (sameBut_setLinkE _ (endIn false K) true (endIn true A)),
        by rw [updE_E, updE_E, if_neg (Ne.symm (hz false)), if_neg (Ne.symm hne)], ?_, ?_⟩
      · rw [splicePred, if_pos hne, setAdj_eq hlA, Option.bind_eq_bind, Option.bind_some, setAdj_eq (by exact hlt false)]
      · intro a b ha
        rw [updE_E, updE_E]
        have hd := (hdis (endIn true A) (by simp [hin]) false).symm
        by_cases h1 : a = endIn false K
        · subst h1; cases b <;> simp [hd]
        · by_cases h2 : a = endIn true A
          · subst h2; cases b <;> simp [h1]
          · simp [h1, h2]
      · intro w b
        have : A ≠ [] := by rintro rfl; simp at hin
        simp [this]
  rw [hg1]
  simp only [Option.bind_some]
  have hv1 : v < g1.vSize := by rw [hs1.vSize]; exact hv
  rw [getArc_eq hv1, hV1, if_neg (by simp), hlv]
  simp only [Option.bind_some]
  obtain ⟨g2, hg2, hs2, hz2, hE2, hV2⟩ : ∃ g2, g1.spliceSucc u (endIn false B) (endIn true K) = some g2 ∧ SameBut g1 g2 ∧ g2.E 0 = g1.E 0 ∧
      (∀ a b, a ≠ 0 → (g2.E a).link b = if b = true ∧ a = endIn false B then endIn true K
        else if b = false ∧ a = endIn true K then endIn false B else (g1.E a).link b) ∧
      (∀ w b, (g2.V w).link b = if b = true ∧ w = u ∧ B = [] then endIn true K
        else (g1.V w).link b) := by
    rcases hB' with rfl | ⟨hne, hin⟩
    · refine ⟨_, ?_, sameBut_setLinkV g1 u true (endIn true K), rfl, ?_, ?_⟩
      · rw [spliceSucc, if_neg (by simp [endIn]), setArc_eq (by rw [hs1.vSize]; exact hu)]
      · intro a b ha
        rw [updV_E]
        rw [if_neg (by simp [endIn, ha])]
        split
        · next hh =>
          rw [hh.1, hh.2, hE1 _ _ (hz true), if_neg, if_neg (by simp)]
          · exact hends true
          · rintro ⟨-, hh⟩
            rcases hA' with rfl | ⟨-, hin⟩
            · exact hz true (hh.trans (by simp [endIn]))
            · exact hdis (endIn true A) (by simp [hin]) true hh.symm
        · rfl
      · intro w b
        rw [updV_V]
        by_cases hw : w = u <;> cases b <;> simp [hw]
    · have hlB : endIn false B < g1.eSize := by
        rw [hs1.eSize]; exact (h.arc u _ (by rw [hru]; simp [hin])).2
      refine ⟨_, ?_, (sameBut_setLinkE g1 (endIn true K) false (endIn false B)).trans
        (sameBut_setLinkE _ (endIn false B) true (endIn true K)),
        by rw [updE_E, updE_E, if_neg (Ne.symm hne), if_neg (Ne.symm (hz true))], ?_, ?_⟩
      · rw [spliceSucc, if_pos hne, if_pos (hz true), setAdj_eq (by rw [hs1.eSize]; exact hlt true),
          Option.bind_eq_bind, Option.bind_some, setAdj_eq (by exact hlB)]
      · intro a b ha
        rw [updE_E, updE_E]
        have hd := (hdis (endIn false B) (by simp [hin]) true).symm
        by_cases h1 : a = endIn true K
        · subst h1; cases b <;> simp [hd]
        · by_cases h2 : a = endIn false B
          · subst h2; cases b <;> simp [h1]
          · simp [h1, h2]
      · intro w b
        have : B ≠ [] := by rintro rfl; simp at hin
        simp [this]
  rw [hg2]
  simp only [Option.bind_some]
  have hv2 : v < g2.vSize := by rw [hs2.vSize]; exact hv1
  refine ⟨_, ?_, (hs1.trans hs2).trans ((sameBut_setLinkV g2 v false 0).trans
    (sameBut_setLinkV _ v true 0)), ?_, ?_, by rw [updV_E, updV_E, hz2, hz1]⟩
  · rw [setArc_eq hv2, Option.bind_some, setArc_eq (by exact hv2)]
  · intro a b ha
    rw [updV_E, updV_E, hE2 a b ha, hE1 a b ha]
    have e1 : endIn true A ≠ endIn true K := by
      rcases hA' with rfl | ⟨-, hin⟩
      · intro hh; exact hz true (hh.symm.trans (by simp [endIn]))
      · exact hdis _ (by simp [hin]) _
    have e2 : endIn false B ≠ endIn false K := by
      rcases hB' with rfl | ⟨-, hin⟩
      · intro hh; exact hz false (hh.symm.trans (by simp [endIn]))
      · exact hdis _ (by simp [hin]) _
    cases b
    · simp only [side, Bool.false_eq_true, false_and, if_false, true_and, Bool.not_false, if_true]
      by_cases h1 : a = endIn true A
      · have : a ≠ endIn true K := h1 ▸ e1
        simp [h1, e1]
      · simp [h1]
    · simp only [side, Bool.true_eq_false, false_and, if_false, true_and, Bool.not_true, if_true,
        Bool.false_eq_true]
  · intro w b
    rw [updV_V, updV_V]
    by_cases hwv : w = v
    · subst hwv; cases b <;> simp
    · simp only [hwv, if_false]
      rw [hV2, hV1]
      cases b <;> simp [side]

/-- Lists after the union. -/
def mergeRot (rot : Nat → List Nat) (u v : Nat) (L : List Nat) : Nat → List Nat :=
  update (update rot u L) v []

theorem mergeRot_of_ne {rot u v L} {w : Nat} (hu : w ≠ u) (hv : w ≠ v) : mergeRot rot u v L w = rot w := by
  simp [mergeRot, hu, hv]
theorem mergeRot_u {rot u v L} (huv : u ≠ v) : mergeRot rot u v L u = L := by simp [mergeRot, huv]
theorem mergeRot_v {rot u v L} : mergeRot rot u v L v = [] := by simp [mergeRot]

theorem splice_links {g rot} (h : Links g rot) {u v : Nat} {A K B : List Nat} (huv : u ≠ v)
    (hu : 1 ≤ u ∧ u < g.vSize) (hv : v < g.vSize) (hru : rot u = A ++ B) (hrv : rot v = K) :
    ∃ g', g.splice u v (endIn true A) (endIn false B) = some g' ∧ SameBut g g' ∧
      Links g' (mergeRot rot u v (A ++ K ++ B)) := by
  have hmem : ∀ w e, e ∈ mergeRot rot u v (A ++ K ++ B) w →
      (e ∈ rot w ∧ w ≠ v) ∨ (w = u ∧ e ∈ rot v) := by
    intro w e he
    by_cases hwv : w = v
    · subst hwv; rw [mergeRot_v] at he; simp at he
    · by_cases hwu : w = u
      · subst hwu; rw [mergeRot_u huv] at he
        rw [hru, hrv]
        simp only [List.mem_append] at he ⊢
        tauto
      · rw [mergeRot_of_ne hwu hwv] at he; exact .inl ⟨he, hwv⟩
  have hrest : (∀ w, (mergeRot rot u v (A ++ K ++ B) w).Nodup) ∧
      (∀ w e, e ∈ mergeRot rot u v (A ++ K ++ B) w → 2 ≤ e ∧ e < g.eSize) ∧
      (∀ w e, e ∈ mergeRot rot u v (A ++ K ++ B) w → 1 ≤ w ∧ w < g.vSize) ∧
      (∀ w x e, e ∈ mergeRot rot u v (A ++ K ++ B) w → e ∈ mergeRot rot u v (A ++ K ++ B) x → w = x) := by
    refine ⟨?_, ?_, ?_, ?_⟩
    · intro w
      by_cases hwv : w = v
      · subst hwv; rw [mergeRot_v]; simp
      · by_cases hwu : w = u
        · subst hwu; rw [mergeRot_u huv]
          have hn := h.nodup w
          have hk := h.nodup v
          rw [hru] at hn
          have : ((A ++ B) ++ K).Nodup := by
            rw [List.nodup_append]
            refine ⟨hn, hrv ▸ hk, ?_⟩
            intro a ha b hb hab
            subst hab
            exact huv (h.disj w v a (hru ▸ ha) (hrv ▸ hb))
          refine (List.Perm.nodup_iff ?_).1 this
          rw [List.append_assoc, List.append_assoc]
          exact List.Perm.append_left _ List.perm_append_comm
        · rw [mergeRot_of_ne hwu hwv]; exact h.nodup w
    · intro w e he
      rcases hmem w e he with hh | hh
      · exact h.arc _ _ hh.1
      · exact h.arc _ _ hh.2
    · intro w e he
      rcases hmem w e he with hh | hh
      · exact h.vert _ _ hh.1
      · rw [hh.1]; exact hu
    · intro w x e hw hx
      rcases hmem w e hw with hh | hh <;> rcases hmem x e hx with h2 | h2
      · exact h.disj _ _ _ hh.1 h2.1
      · exact absurd (h.disj _ _ _ hh.1 h2.2) hh.2
      · exact absurd (h.disj _ _ _ h2.1 hh.2) h2.2
      · rw [hh.1, h2.1]
  by_cases hK : K = []
  · subst hK
    refine ⟨g, ?_, SameBut.refl g, ?_⟩
    · unfold splice
      rw [getArc_eq hv, h.vlink v false hv, hrv]
      simp [endIn]
    · have : mergeRot rot u v (A ++ [] ++ B) = rot := by
        funext w
        by_cases hwv : w = v
        · rw [hwv, mergeRot_v, hrv]
        · by_cases hwu : w = u
          · rw [hwu, mergeRot_u huv, hru]; simp
          · rw [mergeRot_of_ne hwu hwv]
      rw [this]; exact h
  · obtain ⟨g', hg', hs, hE, hV, -⟩ := splice_spec h huv hu.2 hv hru hrv hK
    refine ⟨g', hg', hs, ?_⟩
    have h0u : 0 ∉ A ++ B := hru ▸ h.zero_not_mem u
    have h0K : 0 ∉ K := hrv ▸ h.zero_not_mem v
    have hnu : (A ++ B).Nodup := hru ▸ h.nodup u
    have hnK : K.Nodup := hrv ▸ h.nodup v
    have hdis : ∀ a, a ∈ A ++ B → a ∉ K := by
      intro a ha hb
      exact huv (h.disj u v a (hru ▸ ha) (hrv ▸ hb))
    have hside : ∀ b, (side b A B).Nodup := by
      intro b
      rw [List.nodup_append] at hnu
      cases b
      · exact hnu.1
      · exact hnu.2.1
    have hsdis : ∀ b a, a ∈ side (!b) A B → a ∉ side b A B := by
      intro b a ha hb
      have := (List.nodup_append.1 hnu).2.2
      cases b
      · exact this a hb a ha rfl
      · exact this a ha a hb rfl
    have hend0 : ∀ {b} {L : List Nat} {a : Nat}, a ≠ 0 → a = endIn b L → a ∈ L := by
      intro b L a ha hh
      rw [hh]; exact endIn_mem (hh ▸ ha)
    constructor
    · intro w b hw
      rw [hs.vSize] at hw
      rw [hV]
      by_cases hwv : w = v
      · rw [if_pos hwv, hwv, mergeRot_v]; simp [endIn]
      · rw [if_neg hwv]
        by_cases hwu : w = u
        · rw [hwu, mergeRot_u huv]
          unfold endIn
          rw [dir_append3, headD_append]
          have hdn : dir b (side b A B) = [] ↔ side b A B = [] := by cases b <;> simp
          have hdk : dir b K ≠ [] := by cases b <;> simpa using hK
          by_cases hsd : side b A B = []
          · rw [if_pos ⟨rfl, hsd⟩, if_pos (hdn.2 hsd), headD_append, if_neg hdk]
          · rw [if_neg (by simp [hsd]), if_neg (mt hdn.1 hsd), h.vlink u b hu.2, hru]
            unfold endIn
            rw [dir_append2, headD_append, if_neg (mt hdn.1 hsd)]
        · rw [if_neg (by simp [hwu]), mergeRot_of_ne hwu hwv]; exact h.vlink w b hw
    · intro w b e he
      have he0 : e ≠ 0 := by have := (hrest.2.1 w e he).1; omega
      rw [hE e b he0]
      by_cases hwu : w = u
      · rw [hwu] at he ⊢
        rw [mergeRot_u huv] at he ⊢
        rw [dir_append3]
        by_cases hin : e ∈ side b A B
        · -- in the first part
          have h1 : e ∉ K := hdis e (mem_side hin)
          have h2 : e ≠ endIn (!b) K := fun hh => h1 (hend0 he0 hh)
          rw [if_neg h2, nextIn_app_end (mem_dir.2 hin) (nodup_dir (hside b))
            (fun hh => h0u (mem_side (mem_dir.1 hh))), endIn_dir]
          have hdk : dir b K ≠ [] := by cases b <;> simpa using hK
          rw [headD_append, if_neg hdk]
          split
          · rfl
          · next hne =>
            have : e ∈ rot u := hru ▸ mem_side hin
            rw [h.elink u b e this, hru, dir_append2, nextIn_app_end (mem_dir.2 hin) (nodup_dir (hside b))
              (fun hh => h0u (mem_side (mem_dir.1 hh))), endIn_dir, if_neg hne]
        · rw [if_neg (fun hh => hin (hend0 he0 hh)),
            nextIn_append_right (fun hh => hin (mem_dir.1 hh))]
          by_cases hk : e ∈ K
          · rw [nextIn_app_end (mem_dir.2 hk) (nodup_dir hnK) (fun hh => h0K (mem_dir.1 hh)), endIn_dir]
            split
            · rfl
            · rw [h.elink v b e (hrv ▸ hk), hrv]
          · rw [if_neg (fun hh => hk (hend0 he0 hh)),
              nextIn_append_right (fun hh => hk (mem_dir.1 hh))]
            have hAB : e ∈ A ++ B := by
              simp only [List.mem_append] at he ⊢; tauto
            rw [h.elink u b e (hru ▸ hAB), hru, dir_append2,
              nextIn_append_right (fun hh => hin (mem_dir.1 hh))]
      · by_cases hwv : w = v
        · rw [hwv, mergeRot_v] at he; simp at he
        · rw [mergeRot_of_ne hwu hwv] at he ⊢
          rw [if_neg, if_neg, h.elink w b e he]
          · intro hh
            exact hwv (h.disj _ _ _ he (hrv ▸ hend0 he0 hh))
          · intro hh
            exact hwu (h.disj _ _ _ he (hru ▸ mem_side (hend0 he0 hh)))
    · exact hrest.1
    · rw [hs.eSize]; exact hrest.2.1
    · rw [hs.vSize]; exact hrest.2.2.1
    · exact hrest.2.2.2

end Graph
end Verif
