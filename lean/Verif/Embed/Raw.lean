import Verif.Embed.Model
import Verif.Graph.Merge

/-
What the steps of the embedder do to the adjacency lists.
-/
namespace Verif.Embed
open Verif Verif.Graph Verif.EGraph Function

/-- Nothing changes but links, arc records and records of virtual vertices. -/
structure Fix (g g' : Graph) : Prop where
  N : g'.N = g.N
  M : g'.M = g.M
  arcCap : g'.arcCap = g.arcCap
  holes : g'.holes = g.holes
  holesCap : g'.holesCap = g.holesCap
  stackCap : g'.stackCap = g.stackCap
  flags : g'.flags = g.flags
  index : ∀ v, v ≤ g.N → (g'.V v).index = (g.V v).index
  vflags : ∀ v, v ≤ g.N → (g'.V v).flags = (g.V v).flags

theorem Fix.refl (g : Graph) : Fix g g := by constructor <;> intros <;> rfl
theorem Fix.trans {a b c : Graph} (h : Fix a b) (h' : Fix b c) : Fix a c := by
  constructor
  · rw [h'.N, h.N]
  · rw [h'.M, h.M]
  · rw [h'.arcCap, h.arcCap]
  · rw [h'.holes, h.holes]
  · rw [h'.holesCap, h.holesCap]
  · rw [h'.stackCap, h.stackCap]
  · rw [h'.flags, h.flags]
  · intro v hv; rw [h'.index v (h.N ▸ hv), h.index v hv]
  · intro v hv; rw [h'.vflags v (h.N ▸ hv), h.vflags v hv]
theorem fix_of_same {g g' : Graph} (h : SameBut g g') : Fix g g' :=
  ⟨h.N, h.M, h.arcCap, h.holes, h.holesCap, h.stackCap, h.flags, fun v _ => h.index v, fun v _ => h.vflags v⟩
theorem Fix.vSize {a b : Graph} (h : Fix a b) : b.vSize = a.vSize := by simp [Graph.vSize, h.N]
theorem Fix.eSize {a b : Graph} (h : Fix a b) : b.eSize = a.eSize := by simp [Graph.eSize, h.arcCap]

/-- Putting an arc at an end of a list that is not empty. -/
theorem putArc_spec {g : Graph} {rot : Nat → List Nat} (hL : Links g rot) {v x : Nat} (b : Bool)
    (hv : 1 ≤ v ∧ v < g.vSize) (hx : 2 ≤ x ∧ x < g.eSize) (hfresh : ∀ w, x ∉ rot w) (hne : rot v ≠ []) :
    ∃ g', putArc g v b x = some g' ∧ Links g' (update rot v (putEnd b x (rot v))) ∧
      SameBut g g' ∧ (∀ e, e ≠ x → (∀ w, e ∉ rot w) → g'.E e = g.E e) := by
  have h0 := hL.zero_not_mem v
  have he2 : (g.V v).link b = endIn b (rot v) := hL.vlink v b hv.2
  have hz : endIn b (rot v) ≠ 0 := fun hh => hne ((endIn_zero_iff h0).1 hh)
  have hmem : endIn b (rot v) ∈ rot v := endIn_mem hz
  have hlt := (hL.arc _ _ hmem).2
  have hxe : endIn b (rot v) ≠ x := fun hh => hfresh v (hh ▸ hmem)
  obtain ⟨g1, h1, h2, h3, h4⟩ := attachArc_nil hL b hv hx hfresh
  have hp : putArc g v b x = some (((((g.updE x (·.setLink (!b) 0)).updE x (·.setLink b (endIn b (rot v)))).updE
      (endIn b (rot v)) (·.setLink (!b) x))).updV v (·.setLink b x)) := by
    unfold putArc
    rw [setAdj_eq hx.2]
    simp only [Option.bind_eq_bind, Option.bind_some]
    rw [getArc_eq (by simpa using hv.2)]
    simp only [Option.bind_some, updE_V, he2]
    rw [setAdj_eq (by simpa using hx.2)]
    simp only [Option.bind_some]
    rw [getArc_eq (by simpa using hv.2)]
    simp only [Option.bind_some, updE_V, he2]
    rw [setAdj_eq (by simpa using hlt)]
    simp only [Option.bind_some]
    rw [setArc_eq (by simpa using hv.2)]
  refine ⟨_, hp, ?_⟩
  have ha : g.attachArc v 0 b x = some ((((g.updV v (·.setLink b x)).updE x (·.setLink (!b) 0)).updE x
      (·.setLink b (endIn b (rot v)))).updE (endIn b (rot v)) (·.setLink (!b) x)) := by
    simp only [attachArc, ne_eq, not_true_eq_false, if_false]
    rw [getArc_eq hv.2, setArc_eq hv.2]
    simp only [Option.bind_eq_bind, Option.bind_some]
    rw [setAdj_eq (by simpa using hx.2)]
    simp only [Option.bind_some]
    rw [setAdj_eq (by simpa using hx.2)]
    simp only [Option.bind_some]
    rw [he2, if_pos hz, setAdj_eq (by simpa using hlt)]
  rw [h1] at ha
  injection ha with ha
  have : ((((g.updE x (·.setLink (!b) 0)).updE x (·.setLink b (endIn b (rot v)))).updE
      (endIn b (rot v)) (·.setLink (!b) x))).updV v (·.setLink b x) = g1 := by
    rw [ha]; rfl
  rw [this]
  exact ⟨h2, h3, h4⟩

/-- Where the list of `R` goes. -/
def appendEnd (b : Bool) (L K : List Nat) : List Nat := if b then L ++ K else K ++ L

theorem dir_append (o : Bool) (A B : List Nat) : dir o (A ++ B) = appendEnd (!o) (dir o A) (dir o B) := by
  cases o <;> simp [appendEnd]

/-- Merging the list of `R` into that of `W`. -/
theorem mergeVertex_spec {g : Graph} {rot : Nat → List Nat} (h : Links g rot) {W R : Nat} (wp : Bool) (hWR : W ≠ R)
    (hW : 1 ≤ W ∧ W ≤ g.N) (hR : g.N < R ∧ R < g.vSize) (htw : ∀ e ∈ rot R, twin e < g.eSize) (hne : rot R ≠ []) :
    ∃ g', mergeVertex g W wp R = some g' ∧ Links g' (mergeRot rot W R (appendEnd wp (rot W) (rot R))) ∧ Fix g g' ∧
      g'.stack = g.stack ∧
      (∀ a, (g'.E a).flags = (g.E a).flags) ∧ (∀ a, (g'.E a).nbr = if twin a ∈ rot R then W else (g.E a).nbr) ∧
      (∀ a b, (∀ w, a ∉ rot w) → (g'.E a).link b = (g.E a).link b) := by
  have hWv : W < g.vSize := by unfold Graph.vSize; omega
  have h0R := h.zero_not_mem R
  have h0W := h.zero_not_mem W
  have hz : ∀ b, endIn b (rot R) ≠ 0 := fun b hh => hne ((endIn_zero_iff h0R).1 hh)
  have hmem : ∀ b, endIn b (rot R) ∈ rot R := fun b => endIn_mem (hz b)
  have hlt : ∀ b, endIn b (rot R) < g.eSize := fun b => (h.arc _ _ (hmem b)).2
  have hends : ∀ b, (g.E (endIn b (rot R))).link (!b) = 0 := by
    intro b
    rw [h.elink R (!b) _ (hmem b), nextIn_eq_zero_iff (nodup_dir (h.nodup R))
      (fun hh => h0R (mem_dir.1 hh)) (mem_dir.2 (endIn_mem (hz b)))]
    cases b <;> simp [endIn]
  have hretl : retargetLoop g.eSize g W (endIn false (rot R)) = _ :=
    retargetLoop_spec (rot := rot) (v := R) (u := W) (rot R) [] g.eSize h rfl htw (h.length_le R)
  let g1 : Graph := { g with E := fun a => if twin a ∈ rot R then { g.E a with nbr := W } else g.E a }
  have hg1 : retargetLoop g.eSize g W (endIn false (rot R)) = some g1 := hretl
  have hl1 : ∀ a b, (g1.E a).link b = (g.E a).link b := by
    intro a b
    show (if twin a ∈ rot R then { g.E a with nbr := W } else g.E a).link b = _
    split <;> cases b <;> rfl
  have hWv1 : W < g1.vSize := hWv
  have hlt1 : ∀ b, endIn b (rot R) < g1.eSize := hlt
  have L1 : Links g1 rot := h.congr (g' := g1) rfl rfl hl1 (fun _ _ => rfl)
  have hdisW : ∀ a ∈ rot W, ∀ b, a ≠ endIn b (rot R) := fun a ha b hh => hWR (h.disj W R a ha (hh ▸ hmem b))
  -- the lists united
  obtain ⟨g2, hg2, hE2, hE0, hV2, hfl, hnb, hst⟩ : ∃ g2 : Graph, (if (g1.V W).link wp ≠ 0 then unionLists g1 W wp ((g1.V W).link wp)
      ((g1.V R).link (!wp)) ((g1.V R).link wp) else moveList g1 W wp ((g1.V R).link (!wp)) ((g1.V R).link wp)) = some g2 ∧
      (∀ a b, a ≠ 0 → (g2.E a).link b = if a = endIn (!b) (side b (if wp then rot W else []) (if wp then [] else rot W)) then endIn b (rot R)
        else if a = endIn (!b) (rot R) then endIn b (side (!b) (if wp then rot W else []) (if wp then [] else rot W)) else (g.E a).link b) ∧
      g2.E 0 = g1.E 0 ∧
      (∀ w b, w ≠ R → (g2.V w).link b = if w = W ∧ side b (if wp then rot W else []) (if wp then [] else rot W) = [] then endIn b (rot R)
        else (g.V w).link b) ∧
      (∀ a, (g2.E a).flags = (g1.E a).flags) ∧ (∀ a, (g2.E a).nbr = (g1.E a).nbr) ∧ SameBut g1 g2 := by
    have vW : ∀ b, (g1.V W).link b = endIn b (rot W) := fun b => L1.vlink W b hWv
    have vR : ∀ b, (g1.V R).link b = endIn b (rot R) := fun b => L1.vlink R b hR.2
    rw [vW, vR, vR]
    by_cases hnil : rot W = []
    · have hs := (sameBut_setLinkV g1 W (!wp) (endIn (!wp) (rot R))).trans <| (sameBut_setLinkE _ (endIn (!wp) (rot R)) wp 0).trans <|
        (sameBut_setLinkV _ W wp (endIn wp (rot R))).trans <| sameBut_setLinkE _ (endIn wp (rot R)) (!wp) 0
      have hz0 : endIn wp (rot W) = 0 := (endIn_zero_iff h0W).2 hnil
      refine ⟨_, ?_, ?_, ?_, ?_, fun a => hs.eflags a, fun a => hs.nbr a, hs⟩
      · rw [if_neg (by simp [hz0])]
        unfold moveList
        rw [setArc_eq hWv1]
        simp only [Option.bind_eq_bind, Option.bind_some]
        rw [setAdj_eq (by simpa using hlt1 _)]
        simp only [Option.bind_some]
        rw [setArc_eq (by simpa using hWv1)]
        simp only [Option.bind_some]
        rw [setAdj_eq (by simpa using hlt1 _)]
      · intro a b ha
        have hsd : ∀ b, side b (if wp then rot W else []) (if wp then [] else rot W) = [] := by
          intro b; rw [hnil]; cases b <;> cases wp <;> rfl
        rw [hsd, hsd]
        have e0 : ∀ b, endIn b [] = 0 := by intro b; cases b <;> rfl
        rw [e0, e0, if_neg ha]
        simp only [updE_E, updV_E]
        by_cases h1 : a = endIn (!b) (rot R)
        · subst h1
          rw [if_pos rfl]
          have := hends (!b)
          rw [Bool.not_not] at this
          split
          · split
            · rw [ERec.link_setLink]; split
              · rfl
              · rw [ERec.link_setLink]; split
                · rfl
                · rw [hl1]; exact this
            · rw [ERec.link_setLink]; split
              · rfl
              · rw [hl1]; exact this
          · split
            · rw [ERec.link_setLink]; split
              · rfl
              · rw [hl1]; exact this
            · rw [hl1]; exact this
        · rw [if_neg h1]
          by_cases h2 : a = endIn b (rot R)
          · subst h2
            rcases bool_eq_or_not b wp with rfl | rfl
            · simp [hl1, h1]
            · rw [Bool.not_not] at *
              simp [hl1, h1]
          · have h3 : ∀ c, a ≠ endIn c (rot R) := by
              intro c
              rcases bool_eq_or_not b c with rfl | rfl
              · exact h2
              · exact h1
            simp [h3, hl1]
      · simp only [updE_E, updV_E]
        rw [if_neg (Ne.symm (hz _)), if_neg (Ne.symm (hz _))]
      · intro w b hwR
        have hsd : side b (if wp then rot W else []) (if wp then [] else rot W) = [] := by
          rw [hnil]; cases b <;> cases wp <;> rfl
        rw [hsd]
        by_cases hw : w = W
        · subst hw
          rcases bool_eq_or_not b wp with rfl | rfl <;> simp
        · simp [hw]; rfl
    · have hzW : ∀ b, endIn b (rot W) ≠ 0 := fun b hh => hnil ((endIn_zero_iff h0W).1 hh)
      have hmW : ∀ b, endIn b (rot W) ∈ rot W := fun b => endIn_mem (hzW b)
      have hltW : ∀ b, endIn b (rot W) < g.eSize := fun b => (h.arc _ _ (hmW b)).2
      have hd : ∀ b c, endIn b (rot W) ≠ endIn c (rot R) := fun b c => hdisW _ (hmW b) c
      have hs := (sameBut_setLinkE g1 (endIn wp (rot W)) (!wp) (endIn (!wp) (rot R))).trans <|
        (sameBut_setLinkE _ (endIn (!wp) (rot R)) wp (endIn wp (rot W))).trans <|
        (sameBut_setLinkV _ W wp (endIn wp (rot R))).trans <| sameBut_setLinkE _ (endIn wp (rot R)) (!wp) 0
      refine ⟨_, ?_, ?_, ?_, ?_, fun a => hs.eflags a, fun a => hs.nbr a, hs⟩
      · rw [if_pos (hzW _)]
        unfold unionLists
        rw [setAdj_eq (by exact hltW _)]
        simp only [Option.bind_eq_bind, Option.bind_some]
        rw [setAdj_eq (by simpa using hlt1 _)]
        simp only [Option.bind_some]
        rw [setArc_eq (by simpa using hWv1)]
        simp only [Option.bind_some]
        rw [setAdj_eq (by simpa using hlt1 _)]
      · intro a b ha
        have e0 : ∀ b, endIn b ([] : List Nat) = 0 := by intro b; cases b <;> rfl
        simp only [updE_E, updV_E]
        have hE1 := hends wp
        have hE2 := hends (!wp)
        rw [Bool.not_not] at hE2
        by_cases h1 : a = endIn wp (rot W)
        · have n1 : a ≠ endIn wp (rot R) := h1 ▸ hd _ _
          have n2 : a ≠ endIn (!wp) (rot R) := h1 ▸ hd _ _
          rw [if_neg n1, if_neg n2, if_pos h1, ERec.link_setLink, hl1]
          cases wp <;> cases b <;> simp_all [side]
        · by_cases h2 : a = endIn (!wp) (rot R)
          · by_cases h3 : a = endIn wp (rot R)
            · rw [if_pos h3, if_pos h2, if_neg h1]
              simp only [ERec.link_setLink, hl1]
              cases wp <;> cases b <;> simp_all [side]
            · rw [if_neg h3, if_pos h2, if_neg h1]
              simp only [ERec.link_setLink, hl1]
              cases wp <;> cases b <;> simp_all [side]
          · by_cases h3 : a = endIn wp (rot R)
            · rw [if_pos h3, if_neg h2, if_neg h1]
              simp only [ERec.link_setLink, hl1]
              cases wp <;> cases b <;> simp_all [side]
            · rw [if_neg h3, if_neg h2, if_neg h1, hl1]
              cases wp <;> cases b <;> simp_all [side]
      · simp only [updE_E, updV_E]
        rw [if_neg (Ne.symm (hz _)), if_neg (Ne.symm (hz _)), if_neg (Ne.symm (hzW _))]
      · intro w b hwR
        simp only [updE_V, updV_V]
        by_cases hw : w = W
        · subst hw
          rw [if_pos rfl, VRec.link_setLink]
          cases wp <;> cases b <;> simp [side, hnil, g1]
        · rw [if_neg hw, if_neg (by simp [hw])]
  -- the merged lists
  have hru : rot W = (if wp then rot W else []) ++ (if wp then [] else rot W) := by cases wp <;> simp
  obtain ⟨g3, _, hs3, hl3⟩ := splice_links h hWR ⟨hW.1, hWv⟩ hR.2 hru rfl
  obtain ⟨g3', hg3', hs3', hE3, hV3, hE03⟩ := splice_spec h hWR hWv hR.2 hru rfl hne
  have : g3 = g3' := by
    have := ‹g.splice W R _ _ = some g3›
    rw [hg3'] at this
    injection this with this
    exact this.symm
  subst this
  let g4 : Graph := { g2 with V := Function.update g2.V R {} }
  have hs12 := hst
  have fx : Fix g g4 := by
    have f1 : Fix g g1 := by constructor <;> intros <;> rfl
    have f2 : Fix g1 g2 := fix_of_same hst
    have f3 : Fix g2 g4 := by
      have hN : g2.N = g.N := by rw [hst.N]
      constructor <;> try (intros; rfl)
      · intro v hv; show (Function.update g2.V R {} v).index = _; rw [update_of_ne (by omega)]
      · intro v hv; show (Function.update g2.V R {} v).flags = _; rw [update_of_ne (by omega)]
    exact (f1.trans f2).trans f3
  refine ⟨g4, ?_, ?_, fx, ?_, ?_, ?_, ?_⟩
  · unfold mergeVertex
    rw [getArc_eq hR.2, h.vlink R false hR.2]
    simp only [Option.bind_eq_bind, Option.bind_some]
    rw [hg1]
    simp only [Option.bind_some]
    rw [getArc_eq (by exact hWv), getArc_eq (by exact hR.2), getArc_eq (by exact hR.2)]
    simp only [Option.bind_some]
    have hw : g2.wrV R {} = some g4 := by
      unfold wrV
      rw [if_pos (by rw [hst.vSize]; exact hR.2)]
    by_cases hc : (g1.V W).link wp ≠ 0
    · rw [if_pos hc] at hg2 ⊢
      rw [hg2, Option.bind_some, hw]
    · rw [if_neg hc] at hg2 ⊢
      rw [hg2, Option.bind_some, hw]
  · have e : (if wp then rot W else []) ++ rot R ++ (if wp then [] else rot W) = appendEnd wp (rot W) (rot R) := by
      cases wp <;> simp [appendEnd]
    rw [← e]
    refine hl3.congr (g' := g4) (by rw [fx.N, hs3.N]) (by rw [fx.arcCap, hs3.arcCap]) ?_ ?_
    · intro a b
      by_cases ha : a = 0
      · subst ha
        show (g2.E 0).link b = _
        rw [hE0, hl1, hE03]
      · rw [hE3 a b ha]
        exact hE2 a b ha
    · intro w b
      rw [hV3]
      show (Function.update g2.V R {} w).link b = _
      by_cases hw : w = R
      · rw [hw, update_self, if_pos rfl]; cases b <;> rfl
      · rw [update_of_ne hw, if_neg hw, hV2 w b hw]
  · show g2.stack = _; rw [hst.stack]
  · intro a
    show (g2.E a).flags = _
    rw [hfl]
    show (if twin a ∈ rot R then { g.E a with nbr := W } else g.E a).flags = _
    split <;> rfl
  · intro a
    show (g2.E a).nbr = _
    rw [hnb]
    show (if twin a ∈ rot R then { g.E a with nbr := W } else g.E a).nbr = _
    split <;> rfl
  · intro a b ha
    show (g2.E a).link b = _
    by_cases ha0 : a = 0
    · subst ha0; rw [hE0, hl1]
    · rw [hE2 a b ha0, if_neg, if_neg]
      · intro hh; exact ha R (hh ▸ hmem _)
      · intro hh
        have hin : a ∈ rot W := by
          have hm : a ∈ side b (if wp then rot W else []) (if wp then [] else rot W) := by
            rw [hh]; exact endIn_mem (hh ▸ ha0)
          rw [hru]; exact mem_side hm
        exact ha W hin

/-- The external face link `b` of `v` set. -/
def withExt (s : EGraph) (v : Nat) (b : Bool) (w : Nat) : EGraph :=
  { s with ext := fun x c => if x = v ∧ c = b then w else s.ext x c }

theorem setExt_eq {s : EGraph} {v : Nat} (h : v < s.p.g.vSize) (b : Bool) (w : Nat) :
    s.setExt v b w = some (withExt s v b w) := if_pos h
theorem getExt_eq {s : EGraph} {v : Nat} (h : v < s.p.g.vSize) (b : Bool) : s.getExt v b = some (s.ext v b) := if_pos h

/-- The two links exchanged. -/
def ERec.flip (r : ERec) : ERec := { r with next := r.prev, prev := r.next }

theorem ERec.link_flip (r : ERec) (b : Bool) : (ERec.flip r).link b = r.link (!b) := by cases b <;> rfl

/-- The links of the arcs of `S` exchanged. -/
def flipped (g : Graph) (S : List Nat) : Graph := { g with E := fun a => if a ∈ S then ERec.flip (g.E a) else g.E a }

theorem flip_eq (r : ERec) : (r.setLink false (r.link true)).setLink true (r.link false) = ERec.flip r := by
  cases r; rfl

theorem invertArcs_spec {g : Graph} {rot : Nat → List Nat} (h : Links g rot) {W : Nat} : ∀ (K A : List Nat) (fuel : Nat),
    rot W = A ++ K → K.length ≤ fuel → invertArcs fuel (flipped g A) (K.headD 0) = some (flipped g (A ++ K)) := by
  intro K
  induction K with
  | nil => intro A fuel _ _; cases fuel <;> simp [invertArcs]
  | cons e K ih =>
    intro A fuel hr hf
    obtain ⟨fuel, rfl⟩ : ∃ f, fuel = f + 1 := ⟨fuel - 1, by simp at hf; omega⟩
    have har := h.arc W e (by rw [hr]; simp)
    have hnd := h.nodup W
    rw [hr] at hnd
    have heA : e ∉ A := fun hh => (List.nodup_append.1 hnd).2.2 e hh e (by simp) rfl
    have hE : (flipped g A).E e = g.E e := if_neg heA
    have hnext : (g.E e).link false = K.headD 0 := by
      rw [h.elink W false e (by rw [hr]; simp), hr, dir_false, nextIn_append_right heA]; simp [nextIn]
    have hsz : e < (flipped g A).eSize := har.2
    rw [invertArcs, List.headD_cons, if_neg (by omega), getAdj_eq hsz, getAdj_eq hsz]
    simp only [Option.bind_eq_bind, Option.bind_some]
    rw [setAdj_eq hsz]
    simp only [Option.bind_some]
    rw [setAdj_eq (by simpa using hsz)]
    simp only [Option.bind_some]
    rw [hE, hnext]
    have : ((flipped g A).updE e (·.setLink false ((g.E e).link true))).updE e (·.setLink true (K.headD 0)) =
        flipped g (A ++ [e]) := by
      unfold flipped updE
      simp only
      congr 1
      funext a
      by_cases ha : a = e
      · subst ha
        simp only [update_self, heA, if_false, List.mem_append, List.mem_singleton, or_true, if_true]
        rw [← flip_eq, hnext]
      · simp only [update_of_ne ha, List.mem_append, List.mem_singleton, ha, or_false]
    rw [this, ih (A ++ [e]) fuel (by simp [hr]) (by simp at hf; omega)]
    simp

/-- Inverting a vertex reverses its list. -/
theorem invertVertex_spec {s : EGraph} {rot : Nat → List Nat} (h : Links s.p.g rot) {W : Nat} (hW : 1 ≤ W ∧ W < s.p.g.vSize) :
    ∃ g', s.invertVertex W = some { s.setG g' with ext := fun x b => if x = W then s.ext W (!b) else s.ext x b } ∧
      Links g' (update rot W (rot W).reverse) ∧ SameBut s.p.g g' ∧ (∀ e, e ∉ rot W → g'.E e = s.p.g.E e) := by
  have hfl : invertArcs s.p.g.eSize s.p.g ((rot W).headD 0) = some (flipped s.p.g (rot W)) := by
    have := invertArcs_spec h (rot W) [] s.p.g.eSize rfl (h.length_le W)
    have e : flipped s.p.g [] = s.p.g := by unfold flipped; simp
    rw [e] at this
    exact this
  have hlen : (s.p.g.V W).link false = (rot W).headD 0 := h.vlink W false hW.2
  have hW1 : W < (flipped s.p.g (rot W)).vSize := hW.2
  let g1 := ((flipped s.p.g (rot W)).updV W (·.setLink false ((s.p.g.V W).link true))).updV W
    (·.setLink true ((s.p.g.V W).link false))
  have hs : SameBut s.p.g g1 := by
    have h1 : SameBut s.p.g (flipped s.p.g (rot W)) := by
      constructor <;> try (intros; rfl)
      · intro e; show (if e ∈ rot W then ERec.flip (s.p.g.E e) else s.p.g.E e).nbr = _; split <;> rfl
      · intro e; show (if e ∈ rot W then ERec.flip (s.p.g.E e) else s.p.g.E e).flags = _; split <;> rfl
    exact (h1.trans (sameBut_setLinkV _ W false _)).trans (sameBut_setLinkV _ W true _)
  refine ⟨g1, ?_, ?_, hs, ?_⟩
  · unfold EGraph.invertVertex
    rw [getArc_eq hW.2, hlen]
    simp only [Option.bind_eq_bind, Option.bind_some]
    rw [hfl]
    simp only [Option.bind_some]
    rw [getArc_eq hW1, getArc_eq hW1]
    simp only [Option.bind_some]
    rw [setArc_eq hW1]
    simp only [Option.bind_some]
    rw [setArc_eq (by simpa using hW1)]
    simp only [Option.bind_some]
    have hv : W < (s.setG g1).p.g.vSize := hW.2
    show ((s.setG g1).getExt W false).bind _ = _
    rw [getExt_eq hv]
    simp only [Option.bind_some]
    show ((s.setG g1).getExt W true).bind _ = _
    rw [getExt_eq hv]
    simp only [Option.bind_some]
    show ((s.setG g1).setExt W false _).bind _ = _
    rw [setExt_eq hv]
    simp only [Option.bind_some]
    rw [setExt_eq (by exact hv)]
    unfold withExt
    congr 1
    have : ∀ (t : EGraph) (e1 e2 : Nat → Bool → Nat), e1 = e2 → ({ t with ext := e1 } : EGraph) = { t with ext := e2 } := by
      rintro t e1 e2 rfl; rfl
    refine this (s.setG g1) _ _ ?_
    funext x b
    by_cases hx : x = W
    · subst hx; cases b <;> simp <;> rfl
    · simp [hx]; rfl
  · refine links_replace h hs hW (List.nodup_reverse.2 (h.nodup W)) (fun y hy => .inl (by simpa using hy)) ?_ ?_ ?_ ?_
    · intro b
      have : (g1.V W).link b = (s.p.g.V W).link (!b) := by
        show ((((flipped s.p.g (rot W)).updV W _).updV W _).V W).link b = _
        rw [updV_V, if_pos rfl, VRec.link_setLink]
        cases b
        · simp
        · simp
      rw [this, h.vlink W _ hW.2]
      cases b <;> simp [endIn]
    · intro w b hw
      show ((((flipped s.p.g (rot W)).updV W _).updV W _).V w).link b = _
      rw [updV_V, if_neg hw, updV_V, if_neg hw]; rfl
    · intro b e he
      have he' : e ∈ rot W := by simpa using he
      show (if e ∈ rot W then ERec.flip (s.p.g.E e) else s.p.g.E e).link b = _
      rw [if_pos he', ERec.link_flip, h.elink W _ e he']
      cases b <;> simp
    · intro w b e hw he
      show (if e ∈ rot W then ERec.flip (s.p.g.E e) else s.p.g.E e).link b = _
      rw [if_neg fun hh => hw (h.disj _ _ _ he hh)]
  · intro e he
    show (if e ∈ rot W then ERec.flip (s.p.g.E e) else s.p.g.E e) = _
    rw [if_neg he]

/-- The sign of one arc changed. -/
def toggled (g : Graph) (e : Nat) : Graph := g.updE e fun r => { r with flags := r.flags ^^^ 16 }

theorem flipChild_spec {g : Graph} {rot : Nat → List Nat} (h : Links g rot) {W t : Nat} : ∀ (K A : List Nat) (fuel : Nat),
    rot W = A ++ K → K.length ≤ fuel → t ∈ K → (∀ e ∈ K, (g.E e).flags &&& 14 = 14 ↔ e = t) →
    flipChild fuel g (K.headD 0) = some (toggled g t) := by
  intro K
  induction K with
  | nil => intro A fuel _ _ ht; simp at ht
  | cons e K ih =>
    intro A fuel hr hf ht hty
    obtain ⟨fuel, rfl⟩ : ∃ f, fuel = f + 1 := ⟨fuel - 1, by simp at hf; omega⟩
    have har := h.arc W e (by rw [hr]; simp)
    rw [flipChild, List.headD_cons, if_neg (by omega)]
    have hgt : g.getType e = some ((g.E e).flags &&& 14) := by
      simp [Graph.getType, rdE, har.2]
    rw [hgt]
    simp only [Option.bind_eq_bind, Option.bind_some]
    by_cases he : e = t
    · rw [if_pos ((hty e (by simp)).2 he)]
      subst he
      simp [xorInverted, rdE, wrE, har.2, toggled, updE]
    · rw [if_neg (fun hh => he ((hty e (by simp)).1 hh)), next_eq h hr, Option.bind_some]
      exact ih (A ++ [e]) fuel (by simp [hr]) (by simp at hf; omega) (by
        rcases List.mem_cons.1 ht with rfl | ht
        · exact absurd rfl he
        · exact ht) (fun a ha => hty a (by simp [ha]))

end Verif.Embed
