import Verif.Graph.Model
import Mathlib.Logic.Function.Basic
import Mathlib.Data.Nat.Bitwise
import Mathlib.Data.Finset.Card
import Mathlib.Data.Finset.Range

/-
Pointer-level lemmas: what it means for the link fields to represent a family of lists
(`Links`), and that the attach / detach / restore primitives act on the lists as expected.
-/
namespace Verif
open Function

@[simp] theorem twin_twin (e : Nat) : twin (twin e) = e := by
  simp [twin]
theorem twin_eq (e : Nat) : twin e = if e % 2 = 0 then e + 1 else e - 1 := by
  unfold twin
  split
  · next h => exact Nat.xor_one_of_even (Nat.even_iff.2 h)
  · next h => exact Nat.xor_one_of_odd (Nat.odd_iff.2 (by omega))
theorem twin_ne (e : Nat) : twin e ≠ e := by rw [twin_eq]; split <;> omega
theorem twin_inj {a b : Nat} (h : twin a = twin b) : a = b := by
  have := congrArg twin h; simpa using this
theorem twin_eq_iff {a b : Nat} : twin a = b ↔ a = twin b :=
  ⟨fun h => by rw [← h]; simp, fun h => by rw [h]; simp⟩
theorem two_le_twin {e : Nat} (h : 2 ≤ e) : 2 ≤ twin e := by rw [twin_eq]; split <;> omega
theorem twin_lt {e n : Nat} (h : e < n) (hn : n % 2 = 0) : twin e < n := by
  rw [twin_eq]; split <;> omega

@[simp] theorem ERec.link_setLink (r : ERec) (b c : Bool) (x : Nat) :
    (r.setLink b x).link c = if c = b then x else r.link c := by
  cases b <;> cases c <;> simp [ERec.link, ERec.setLink]
@[simp] theorem ERec.nbr_setLink (r : ERec) (b : Bool) (x : Nat) : (r.setLink b x).nbr = r.nbr := by
  cases b <;> rfl
@[simp] theorem ERec.flags_setLink (r : ERec) (b : Bool) (x : Nat) :
    (r.setLink b x).flags = r.flags := by cases b <;> rfl
@[simp] theorem VRec.link_setLink (r : VRec) (b c : Bool) (x : Nat) :
    (r.setLink b x).link c = if c = b then x else r.link c := by
  cases b <;> cases c <;> simp [VRec.link, VRec.setLink]
@[simp] theorem VRec.index_setLink (r : VRec) (b : Bool) (x : Nat) :
    (r.setLink b x).index = r.index := by cases b <;> rfl
@[simp] theorem VRec.flags_setLink (r : VRec) (b : Bool) (x : Nat) :
    (r.setLink b x).flags = r.flags := by cases b <;> rfl
theorem ERec.ext_link {r s : ERec} (h : ∀ b, r.link b = s.link b) (hn : r.nbr = s.nbr)
    (hf : r.flags = s.flags) : r = s := by
  have h0 := h false; have h1 := h true
  cases r; cases s; simp_all [ERec.link]
theorem VRec.ext_link {r s : VRec} (h : ∀ b, r.link b = s.link b) (hn : r.index = s.index)
    (hf : r.flags = s.flags) : r = s := by
  have h0 := h false; have h1 := h true
  cases r; cases s; simp_all [VRec.link]

namespace Graph

/-- Pure update of one edge record. -/
def updE (g : Graph) (e : Nat) (f : ERec → ERec) : Graph :=
  { g with E := Function.update g.E e (f (g.E e)) }
/-- Pure update of one vertex record. -/
def updV (g : Graph) (v : Nat) (f : VRec → VRec) : Graph :=
  { g with V := Function.update g.V v (f (g.V v)) }

@[simp] theorem updE_E (g : Graph) (e f e') :
    (g.updE e f).E e' = if e' = e then f (g.E e') else g.E e' := by
  simp only [updE, Function.update_apply]; split
  · next h => rw [h]
  · rfl
@[simp] theorem updV_V (g : Graph) (v f v') :
    (g.updV v f).V v' = if v' = v then f (g.V v') else g.V v' := by
  simp only [updV, Function.update_apply]; split
  · next h => rw [h]
  · rfl
@[simp] theorem updE_V (g : Graph) (e f) : (g.updE e f).V = g.V := rfl
@[simp] theorem updV_E (g : Graph) (e f) : (g.updV e f).E = g.E := rfl

/-- Everything but the link fields is the same in both graphs. -/
structure SameBut (g g' : Graph) : Prop where
  N : g'.N = g.N
  M : g'.M = g.M
  arcCap : g'.arcCap = g.arcCap
  holes : g'.holes = g.holes
  holesCap : g'.holesCap = g.holesCap
  stack : g'.stack = g.stack
  stackCap : g'.stackCap = g.stackCap
  flags : g'.flags = g.flags
  nbr : ∀ e, (g'.E e).nbr = (g.E e).nbr
  eflags : ∀ e, (g'.E e).flags = (g.E e).flags
  index : ∀ v, (g'.V v).index = (g.V v).index
  vflags : ∀ v, (g'.V v).flags = (g.V v).flags

theorem SameBut.refl (g : Graph) : SameBut g g := by constructor <;> intros <;> rfl
theorem SameBut.trans {a b c : Graph} (h : SameBut a b) (h' : SameBut b c) : SameBut a c := by
  constructor
  · rw [h'.N, h.N]
  · rw [h'.M, h.M]
  · rw [h'.arcCap, h.arcCap]
  · rw [h'.holes, h.holes]
  · rw [h'.holesCap, h.holesCap]
  · rw [h'.stack, h.stack]
  · rw [h'.stackCap, h.stackCap]
  · rw [h'.flags, h.flags]
  · intro e; rw [h'.nbr, h.nbr]
  · intro e; rw [h'.eflags, h.eflags]
  · intro e; rw [h'.index, h.index]
  · intro e; rw [h'.vflags, h.vflags]
theorem SameBut.vSize {a b : Graph} (h : SameBut a b) : b.vSize = a.vSize := by
  simp [Graph.vSize, h.N]
theorem SameBut.eSize {a b : Graph} (h : SameBut a b) : b.eSize = a.eSize := by
  simp [Graph.eSize, h.arcCap]
theorem SameBut.inUse {a b : Graph} (h : SameBut a b) : b.inUse = a.inUse := by
  simp [Graph.inUse, h.M, h.holes]

theorem sameBut_setLinkE (g : Graph) (e b x) : SameBut g (g.updE e (·.setLink b x)) := by
  constructor <;> try (intros; rfl)
  · intro e'; rw [updE_E]; split <;> simp
  · intro e'; rw [updE_E]; split <;> simp
theorem sameBut_setLinkV (g : Graph) (v b x) : SameBut g (g.updV v (·.setLink b x)) := by
  constructor <;> try (intros; rfl)
  · intro e'; rw [updV_V]; split <;> simp
  · intro e'; rw [updV_V]; split <;> simp

@[simp] theorem updE_eSize (g : Graph) (e f) : (g.updE e f).eSize = g.eSize := rfl
@[simp] theorem updE_vSize (g : Graph) (e f) : (g.updE e f).vSize = g.vSize := rfl
@[simp] theorem updV_eSize (g : Graph) (e f) : (g.updV e f).eSize = g.eSize := rfl
@[simp] theorem updV_vSize (g : Graph) (e f) : (g.updV e f).vSize = g.vSize := rfl

theorem getAdj_eq {g : Graph} {e} (h : e < g.eSize) (b) : g.getAdj e b = some ((g.E e).link b) := by
  simp [getAdj, rdE, h]
theorem getArc_eq {g : Graph} {v} (h : v < g.vSize) (b) : g.getArc v b = some ((g.V v).link b) := by
  simp [getArc, rdV, h]
theorem getNbr_eq {g : Graph} {e} (h : e < g.eSize) : g.getNbr e = some (g.E e).nbr := by
  simp [getNbr, rdE, h]
theorem setAdj_eq {g : Graph} {e} (h : e < g.eSize) (b x) :
    g.setAdj e b x = some (g.updE e (·.setLink b x)) := by
  simp [setAdj, rdE, wrE, h, updE]
theorem setArc_eq {g : Graph} {v} (h : v < g.vSize) (b x) :
    g.setArc v b x = some (g.updV v (·.setLink b x)) := by
  simp [setArc, rdV, wrV, h, updV]
theorem setNbr_eq {g : Graph} {e} (h : e < g.eSize) (x) :
    g.setNbr e x = some (g.updE e (fun r => { r with nbr := x })) := by
  simp [setNbr, rdE, wrE, h, updE]

/-- The link fields of `g` represent the family of lists `rot` (one list of arcs per vertex). -/
structure Links (g : Graph) (rot : Nat → List Nat) : Prop where
  vlink : ∀ v b, v < g.vSize → (g.V v).link b = endIn b (rot v)
  elink : ∀ v b e, e ∈ rot v → (g.E e).link b = nextIn (dir b (rot v)) e
  nodup : ∀ v, (rot v).Nodup
  arc : ∀ v e, e ∈ rot v → 2 ≤ e ∧ e < g.eSize
  vert : ∀ v e, e ∈ rot v → 1 ≤ v ∧ v < g.vSize
  disj : ∀ v w e, e ∈ rot v → e ∈ rot w → v = w

theorem Links.zero_not_mem {g rot} (h : Links g rot) (v) : 0 ∉ rot v := fun h0 => by
  have := (h.arc v 0 h0).1; omega

theorem endIn_zero_iff {b} {L : List Nat} (h0 : 0 ∉ L) : endIn b L = 0 ↔ L = [] := by
  unfold endIn
  constructor
  · intro h
    rcases headD_mem_or (L := dir b L) with hh | hh
    · cases b <;> simpa using hh.2
    · rw [h] at hh; exact absurd (mem_dir.1 hh) h0
  · rintro rfl; simp
theorem endIn_mem {b} {L : List Nat} (h : endIn b L ≠ 0) : endIn b L ∈ L := by
  unfold endIn at *
  rcases headD_mem_or (L := dir b L) with hh | hh
  · exact absurd hh.1 h
  · exact mem_dir.1 hh

/-- Put `x` at the front (link 0) or at the back (link 1). -/
def putEnd (b : Bool) (x : Nat) (L : List Nat) : List Nat := if b then L ++ [x] else x :: L
/-- Put `x` right after (link 0) or right before (link 1) `e`. -/
def putNear (e : Nat) (b : Bool) (x : Nat) (L : List Nat) : List Nat :=
  if b then insertBefore e x L else insertAfter e x L

theorem mem_putEnd {b x L} {e : Nat} : e ∈ putEnd b x L ↔ e = x ∨ e ∈ L := by
  cases b <;> simp [putEnd, or_comm]
theorem nodup_putEnd {b x} {L : List Nat} (h : L.Nodup) (hx : x ∉ L) : (putEnd b x L).Nodup := by
  cases b
  · simp [putEnd, h, hx]
  · simp only [putEnd, if_true]
    rw [List.nodup_append]; simp [h]; intro a ha hax; subst hax; exact hx ha
theorem dir_putEnd_self (b x L) : dir b (putEnd b x L) = x :: dir b L := by
  cases b <;> simp [putEnd]
theorem dir_putEnd_not (b x L) : dir (!b) (putEnd b x L) = dir (!b) L ++ [x] := by
  cases b <;> simp [putEnd]

theorem mem_putNear {e b x L} (he : e ∈ L) {y : Nat} : y ∈ putNear e b x L ↔ y = x ∨ y ∈ L := by
  cases b
  · simp only [putNear, Bool.false_eq_true, if_false]; rw [(insertAfter_perm he).mem_iff]; simp
  · simp only [putNear, if_true]; rw [(insertBefore_perm he).mem_iff]; simp
theorem nodup_putNear {e b x} {L : List Nat} (he : e ∈ L) (h : L.Nodup) (hx : x ∉ L) :
    (putNear e b x L).Nodup := by
  cases b
  · simp only [putNear, Bool.false_eq_true, if_false]
    rw [(insertAfter_perm he).nodup_iff]; simp [h, hx]
  · simp only [putNear, if_true]; rw [(insertBefore_perm he).nodup_iff]; simp [h, hx]
theorem dir_putNear_self {e b x} {L : List Nat} (h : L.Nodup) :
    dir b (putNear e b x L) = insertAfter e x (dir b L) := by
  cases b
  · simp [putNear]
  · simp [putNear, reverse_insertBefore h]
theorem dir_putNear_not {e b x} {L : List Nat} (h : L.Nodup) :
    dir (!b) (putNear e b x L) = insertBefore e x (dir (!b) L) := by
  cases b
  · simp [putNear, reverse_insertAfter h]
  · simp [putNear]

theorem bool_eq_or_not (b c : Bool) : c = b ∨ c = !b := by cases b <;> cases c <;> simp

/-- The side conditions of `Links` after the list of one vertex is replaced. -/
theorem links_replace {g g' : Graph} {rot : Nat → List Nat} (hL : Links g rot) (hs : SameBut g g')
    {v : Nat} {L' : List Nat} (hv : 1 ≤ v ∧ v < g.vSize) (hnd : L'.Nodup)
    (hmem : ∀ y ∈ L', y ∈ rot v ∨ ((2 ≤ y ∧ y < g.eSize) ∧ ∀ w, y ∉ rot w))
    (hvl : ∀ b, (g'.V v).link b = endIn b L')
    (hvo : ∀ w b, w ≠ v → (g'.V w).link b = (g.V w).link b)
    (hel : ∀ b, ∀ e ∈ L', (g'.E e).link b = nextIn (dir b L') e)
    (heo : ∀ w b e, w ≠ v → e ∈ rot w → (g'.E e).link b = (g.E e).link b) :
    Links g' (update rot v L') := by
  constructor
  · intro w b hw
    by_cases hwv : w = v
    · subst hwv; rw [update_self]; exact hvl b
    · rw [update_of_ne hwv, hvo w b hwv]; exact hL.vlink w b (hs.vSize ▸ hw)
  · intro w b e he
    by_cases hwv : w = v
    · subst hwv; rw [update_self] at he ⊢; exact hel b e he
    · rw [update_of_ne hwv] at he ⊢; rw [heo w b e hwv he]; exact hL.elink w b e he
  · intro w
    by_cases hwv : w = v
    · subst hwv; rw [update_self]; exact hnd
    · rw [update_of_ne hwv]; exact hL.nodup w
  · intro w e he
    rw [hs.eSize]
    by_cases hwv : w = v
    · subst hwv; rw [update_self] at he
      rcases hmem e he with h | h
      · exact hL.arc _ _ h
      · exact h.1
    · rw [update_of_ne hwv] at he; exact hL.arc _ _ he
  · intro w e he
    rw [hs.vSize]
    by_cases hwv : w = v
    · subst hwv; exact hv
    · rw [update_of_ne hwv] at he; exact hL.vert _ _ he
  · intro w w' e he he'
    simp only [update_apply] at he he'
    split at he <;> split at he'
    · omega
    · next h1 h2 =>
      rcases hmem e he with h | h
      · subst h1; exact hL.disj _ _ _ h he'
      · exact absurd he' (h.2 _)
    · next h1 h2 =>
      rcases hmem e he' with h | h
      · subst h2; exact hL.disj _ _ _ he h
      · exact absurd he (h.2 _)
    · exact hL.disj _ _ _ he he'

/-- Attaching at the end of a list. -/
theorem attachArc_nil {g : Graph} {rot : Nat → List Nat} (hL : Links g rot) {v x : Nat} (b : Bool)
    (hv : 1 ≤ v ∧ v < g.vSize) (hx : 2 ≤ x ∧ x < g.eSize) (hfresh : ∀ w, x ∉ rot w) :
    ∃ g', g.attachArc v 0 b x = some g' ∧ Links g' (update rot v (putEnd b x (rot v))) ∧
      SameBut g g' ∧ (∀ e, e ≠ x → (∀ w, e ∉ rot w) → g'.E e = g.E e) := by
  have h0 := hL.zero_not_mem v
  have hnd := hL.nodup v
  have hxv := hfresh v
  have he2 : (g.V v).link b = endIn b (rot v) := hL.vlink v b hv.2
  have hm : ∀ y ∈ putEnd b x (rot v), y ∈ rot v ∨ ((2 ≤ y ∧ y < g.eSize) ∧ ∀ w, y ∉ rot w) := by
    intro y hy
    rcases mem_putEnd.1 hy with rfl | hy
    · exact .inr ⟨hx, hfresh⟩
    · exact .inl hy
  simp only [attachArc, ne_eq, not_true_eq_false, if_false]
  rw [getArc_eq hv.2, setArc_eq hv.2]
  simp only [Option.bind_eq_bind, Option.bind_some]
  rw [setAdj_eq (by simpa using hx.2)]
  simp only [Option.bind_some]
  rw [setAdj_eq (by simpa using hx.2)]
  simp only [Option.bind_some]
  rw [he2]
  by_cases hz : endIn b (rot v) = 0
  · -- empty list
    have hnil : rot v = [] := (endIn_zero_iff h0).1 hz
    simp only [hz, not_true_eq_false, if_false]
    rw [setArc_eq (by simpa using hv.2)]
    have hs := (sameBut_setLinkV g v b x).trans <| (sameBut_setLinkE _ x (!b) 0).trans <|
        (sameBut_setLinkE _ x b 0).trans <| sameBut_setLinkV _ v (!b) x
    refine ⟨_, rfl, links_replace hL hs hv (nodup_putEnd hnd hxv) hm ?_ ?_ ?_ ?_, hs, ?_⟩
    · intro c
      rw [hnil]
      have : endIn c (putEnd b x []) = x := by cases b <;> cases c <;> simp [putEnd, endIn]
      rw [this]
      rcases bool_eq_or_not b c with rfl | rfl <;> simp
    · intro w c hwv; simp [hwv]
    · intro c e he
      rw [hnil] at he ⊢
      simp only [mem_putEnd, List.not_mem_nil, or_false] at he
      subst he
      have : dir c (putEnd b e []) = [e] := by cases b <;> cases c <;> simp [putEnd]
      rw [this]
      rcases bool_eq_or_not b c with rfl | rfl <;> simp
    · intro w c e hwv he
      have hex : e ≠ x := fun h => hfresh w (h ▸ he)
      simp [hex]
    · intro e hex _; simp [hex]
  · -- non-empty list
    have hmem : endIn b (rot v) ∈ rot v := endIn_mem hz
    have hlt := (hL.arc _ _ hmem).2
    simp only [hz, not_false_eq_true, if_true]
    rw [setAdj_eq (by simpa using hlt)]
    generalize he2' : endIn b (rot v) = e2 at *
    have hxe2 : x ≠ e2 := fun h => hxv (h ▸ hmem)
    have h0d : ∀ c, 0 ∉ dir c (rot v) := fun c => by simpa using h0
    have hnil : ∀ c, dir c (rot v) ≠ [] := by
      intro c h
      have : e2 ∈ dir c (rot v) := by simpa using hmem
      rw [h] at this; simp at this
    have hs := (sameBut_setLinkV g v b x).trans <| (sameBut_setLinkE _ x (!b) 0).trans <|
        (sameBut_setLinkE _ x b e2).trans <| sameBut_setLinkE _ e2 (!b) x
    refine ⟨_, rfl, links_replace hL hs hv (nodup_putEnd hnd hxv) hm ?_ ?_ ?_ ?_, hs, ?_⟩
    · intro c
      simp only [updE_V, updV_V, if_true, VRec.link_setLink]
      rcases bool_eq_or_not b c with rfl | rfl
      · simp [endIn, dir_putEnd_self]
      · rw [if_neg (by simp)]
        rw [hL.vlink v _ hv.2, endIn, endIn, dir_putEnd_not, headD_append, if_neg (hnil _)]
    · intro w c hwv; simp [hwv]
    · intro c e he
      simp only [updE_E, updV_E]
      rcases mem_putEnd.1 he with rfl | hev
      · simp only [if_neg hxe2, if_true, ERec.link_setLink]
        rcases bool_eq_or_not b c with rfl | rfl
        · simp only [if_true]; rw [dir_putEnd_self, nextIn_cons_self, ← he2', endIn]
        · rw [if_neg (by simp), if_pos rfl, dir_putEnd_not,
            nextIn_append_right (by simpa using hxv)]; simp
      · have hex : e ≠ x := fun h => hxv (h ▸ hev)
        simp only [if_neg hex]
        rcases bool_eq_or_not b c with rfl | rfl
        · rw [dir_putEnd_self, nextIn_cons_ne _ (Ne.symm hex)]
          rw [← hL.elink _ _ _ hev]
          split <;> simp
        · rw [dir_putEnd_not, nextIn_append_left (by simpa using hev) (h0d _)]
          have hz' := nextIn_eq_zero_iff (nodup_dir (b := !b) hnd) (h0d _) (mem_dir.2 hev)
          rw [← dir_dir_not, Bool.not_not] at hz'
          have h2 : (dir b (rot v)).headD 0 = e2 := he2'
          rw [h2] at hz'
          by_cases hee : e = e2
          · subst hee; rw [if_pos rfl, if_pos (hz'.2 rfl)]; simp
          · rw [if_neg hee, if_neg (fun h => hee (hz'.1 h).symm)]
            exact hL.elink _ _ _ hev
    · intro w c e hwv he
      have hex : e ≠ x := fun h => hfresh w (h ▸ he)
      have hee : e ≠ e2 := fun h => hwv (hL.disj w v e he (h ▸ hmem))
      simp [hex, hee]
    · intro e hex hn
      have hee : e ≠ e2 := fun h => hn v (h ▸ hmem)
      simp [hex, hee]

/-- Attaching next to an arc `a` of the list. -/
theorem attachArc_arc {g : Graph} {rot : Nat → List Nat} (hL : Links g rot) {v a x : Nat} (b : Bool)
    (ha : a ∈ rot v) (hx : 2 ≤ x ∧ x < g.eSize) (hfresh : ∀ w, x ∉ rot w) :
    ∃ g', g.attachArc v a b x = some g' ∧ Links g' (update rot v (putNear a b x (rot v))) ∧
      SameBut g g' ∧ (∀ e, e ≠ x → (∀ w, e ∉ rot w) → g'.E e = g.E e) := by
  have hnb : ¬ ((!b) = b) := by simp
  have hv := hL.vert _ _ ha
  have har := hL.arc _ _ ha
  have h0 := hL.zero_not_mem v
  have hnd := hL.nodup v
  have hxv := hfresh v
  have hxa : x ≠ a := fun h => hxv (h ▸ ha)
  have ha0 : a ≠ 0 := by omega
  have h0d : ∀ c, 0 ∉ dir c (rot v) := fun c => by simpa using h0
  have hxd : ∀ c, x ∉ dir c (rot v) := fun c => by simpa using hxv
  have had : ∀ c, a ∈ dir c (rot v) := fun c => by simpa using ha
  have hndd : ∀ c, (dir c (rot v)).Nodup := fun c => nodup_dir hnd
  have he2 : (g.E a).link b = nextIn (dir b (rot v)) a := hL.elink v b a ha
  have hm : ∀ y ∈ putNear a b x (rot v), y ∈ rot v ∨ ((2 ≤ y ∧ y < g.eSize) ∧ ∀ w, y ∉ rot w) := by
    intro y hy
    rcases (mem_putNear ha).1 hy with rfl | hy
    · exact .inr ⟨hx, hfresh⟩
    · exact .inl hy
  simp only [attachArc, ne_eq, ha0, not_false_eq_true, if_true]
  rw [getAdj_eq har.2, setAdj_eq har.2]
  simp only [Option.bind_eq_bind, Option.bind_some]
  rw [setAdj_eq (by simpa using hx.2)]
  simp only [Option.bind_some]
  rw [setAdj_eq (by simpa using hx.2)]
  simp only [Option.bind_some]
  rw [he2]
  generalize he2' : nextIn (dir b (rot v)) a = e2 at *
  -- links of the arcs, in both cases
  have key : ∀ c, ∀ e ∈ rot v, nextIn (dir c (putNear a b x (rot v))) e =
      if c = b then (if e = a then x else (g.E e).link c)
      else (if (g.E e).link c = a then x else (g.E e).link c) := by
    intro c e hev
    have hex : e ≠ x := fun h => hxv (h ▸ hev)
    rcases bool_eq_or_not b c with rfl | rfl
    · rw [dir_putNear_self hnd, nextIn_insertAfter (had _) (hxd _), if_neg hex, if_pos rfl,
        hL.elink _ _ _ hev]
    · rw [dir_putNear_not hnd, nextIn_insertBefore (hndd _) (h0d _) (had _) (hxd _), if_neg hex,
        if_neg hnb, hL.elink _ _ _ hev]
  have keyx : ∀ c, nextIn (dir c (putNear a b x (rot v))) x = if c = b then e2 else a := by
    intro c
    rcases bool_eq_or_not b c with rfl | rfl
    · rw [dir_putNear_self hnd, nextIn_insertAfter (had _) (hxd _), if_neg hxa, if_pos rfl,
        if_pos rfl, he2']
    · rw [dir_putNear_not hnd, nextIn_insertBefore (hndd _) (h0d _) (had _) (hxd _), if_pos rfl,
        if_neg hnb]
  have keyv : ∀ c, endIn c (putNear a b x (rot v)) =
      if c = b then (g.V v).link c else if (g.V v).link c = a then x else (g.V v).link c := by
    intro c
    rcases bool_eq_or_not b c with rfl | rfl
    · rw [endIn, dir_putNear_self hnd, headD_insertAfter, if_pos rfl, hL.vlink v _ hv.2, endIn]
    · rw [endIn, dir_putNear_not hnd, headD_insertBefore (had _), if_neg hnb,
        hL.vlink v _ hv.2, endIn]
  by_cases hz : e2 = 0
  · subst hz
    simp only [not_true_eq_false, if_false]
    rw [setArc_eq (by simpa using hv.2)]
    have hs := (sameBut_setLinkE g a b x).trans <| (sameBut_setLinkE _ x (!b) a).trans <|
        (sameBut_setLinkE _ x b 0).trans <| sameBut_setLinkV _ v (!b) x
    have hlast : (g.V v).link (!b) = a := by
      rw [hL.vlink v _ hv.2, endIn, dir_dir_not]
      exact (nextIn_eq_zero_iff (hndd b) (h0d _) (had _)).1 he2'
    have hnolink : ∀ e ∈ rot v, (g.E e).link (!b) ≠ a := by
      intro e he h
      rw [hL.elink _ _ _ he, nextIn_eq_iff (hndd _) (h0d _) (mem_dir.2 he) (had _),
        ← dir_dir_not, Bool.not_not, he2'] at h
      exact h0 (h ▸ he)
    refine ⟨_, rfl, links_replace hL hs hv (nodup_putNear ha hnd hxv) hm ?_ ?_ ?_ ?_, hs, ?_⟩
    · intro c
      rw [keyv]
      rcases bool_eq_or_not b c with rfl | rfl
      · simp
      · simp [hlast]
    · intro w c hwv; simp [hwv]
    · intro c e he
      rcases (mem_putNear ha).1 he with rfl | hev
      · rw [keyx]
        simp only [updV_E, updE_E, hxa, if_true, if_false, ERec.link_setLink]
        rcases bool_eq_or_not b c with rfl | rfl <;> simp
      · have hex : e ≠ x := fun h => hxv (h ▸ hev)
        rw [key c e hev]
        simp only [updV_E, updE_E, hex, if_false]
        rcases bool_eq_or_not b c with rfl | rfl
        · split <;> simp
        · rw [if_neg (hnolink e hev)]
          split <;> simp
    · intro w c e hwv he
      have hex : e ≠ x := fun h => hfresh w (h ▸ he)
      have hea : e ≠ a := fun h => hwv (hL.disj w v e he (h ▸ ha))
      simp [hex, hea]
    · intro e hex hn
      have hea : e ≠ a := fun h => hn v (h ▸ ha)
      simp [hex, hea]
  · simp only [hz, not_false_eq_true, if_true]
    have hmem : e2 ∈ rot v := by
      rcases nextIn_mem_or (dir b (rot v)) a with h | h
      · rw [he2'] at h; exact absurd h hz
      · rw [he2'] at h; exact mem_dir.1 h
    have hlt := (hL.arc _ _ hmem).2
    rw [setAdj_eq (by simpa using hlt)]
    have hs := (sameBut_setLinkE g a b x).trans <| (sameBut_setLinkE _ x (!b) a).trans <|
        (sameBut_setLinkE _ x b e2).trans <| sameBut_setLinkE _ e2 (!b) x
    have hxe2 : x ≠ e2 := fun h => hxv (h ▸ hmem)
    have hlink : ∀ e ∈ rot v, ((g.E e).link (!b) = a ↔ e = e2) := by
      intro e he
      rw [hL.elink _ _ _ he, nextIn_eq_iff (hndd _) (h0d _) (mem_dir.2 he) (had _),
        ← dir_dir_not, Bool.not_not, he2']
      exact eq_comm
    have hnotlast : (g.V v).link (!b) ≠ a := by
      rw [hL.vlink v _ hv.2, endIn, dir_dir_not]
      intro h
      have := (nextIn_eq_zero_iff (hndd b) (h0d _) (had _)).2 h
      rw [he2'] at this; exact hz this
    have ha2 : e2 ≠ a := by
      intro h
      have := (hlink e2 hmem).2 rfl
      rw [h] at this
      rw [hL.elink _ _ _ ha, nextIn_eq_iff (hndd _) (h0d _) (had _) (had _)] at this
      cases hd : dir (!b) (rot v) with
      | nil => have := had (!b); rw [hd] at this; simp at this
      | cons c T =>
        have h3 := (nextIn_eq_iff (hndd (!b)) (h0d _) (had _) (had _)).2 this
        have := hndd (!b)
        -- an element cannot follow itself in a duplicate-free list
        have aux : ∀ (L : List Nat), L.Nodup → a ∈ L → nextIn L a ≠ a := by
          intro L
          induction L with
          | nil => simp
          | cons c T ih =>
            intro hn hm h
            have hn' := List.nodup_cons.1 hn
            by_cases hc : c = a
            · subst hc
              rw [nextIn_cons_self] at h
              rcases headD_mem_or (L := T) with hh | hh
              · exact ha0 (h ▸ hh.1)
              · exact hn'.1 (h ▸ hh)
            · rw [nextIn_cons_ne _ hc] at h
              refine ih hn'.2 ?_ h
              rcases List.mem_cons.1 hm with h | h
              · exact absurd h.symm hc
              · exact h
        exact aux _ this (had _) h3
    refine ⟨_, rfl, links_replace hL hs hv (nodup_putNear ha hnd hxv) hm ?_ ?_ ?_ ?_, hs, ?_⟩
    · intro c
      rw [keyv]
      simp only [updE_V]
      rcases bool_eq_or_not b c with rfl | rfl
      · simp
      · simp [hnotlast]
    · intro w c hwv; simp
    · intro c e he
      rcases (mem_putNear ha).1 he with rfl | hev
      · rw [keyx]
        simp only [updE_E, hxa, hxe2, if_true, if_false, ERec.link_setLink]
        rcases bool_eq_or_not b c with rfl | rfl <;> simp
      · have hex : e ≠ x := fun h => hxv (h ▸ hev)
        rw [key c e hev]
        simp only [updE_E, hex, if_false]
        rcases bool_eq_or_not b c with rfl | rfl
        · by_cases h1 : e = a
          · subst h1; simp [Ne.symm ha2]
          · simp only [h1, if_false, if_true]; split <;> simp
        · rw [if_neg hnb]
          by_cases h1 : e = e2
          · subst h1; rw [if_pos ((hlink e hev).2 rfl)]; simp
          · rw [if_neg (fun h => h1 ((hlink e hev).1 h)), if_neg h1]
            split <;> simp
    · intro w c e hwv he
      have hex : e ≠ x := fun h => hfresh w (h ▸ he)
      have hea : e ≠ a := fun h => hwv (hL.disj w v e he (h ▸ ha))
      have hee : e ≠ e2 := fun h => hwv (hL.disj w v e he (h ▸ hmem))
      simp [hex, hea, hee]
    · intro e hex hn
      have hea : e ≠ a := fun h => hn v (h ▸ ha)
      have hee : e ≠ e2 := fun h => hn v (h ▸ hmem)
      simp [hex, hea, hee]

/-- Two graphs that agree on everything, link fields included, are equal. -/
theorem SameBut.eq {g g' : Graph} (hs : SameBut g g')
    (hE : ∀ e b, (g'.E e).link b = (g.E e).link b) (hV : ∀ v b, (g'.V v).link b = (g.V v).link b) :
    g' = g := by
  have h1 : g'.E = g.E := funext fun e => ERec.ext_link (hE e) (hs.nbr e) (hs.eflags e)
  have h2 : g'.V = g.V := funext fun v => VRec.ext_link (hV v) (hs.index v) (hs.vflags v)
  obtain ⟨a, b, c, d, e, f, h, i, _, _, _, _⟩ := hs
  cases g; cases g'; simp_all

/-- Detaching an arc removes it from its list, and restoring it gives back the very same state. -/
theorem detachArc_spec {g : Graph} {rot : Nat → List Nat} (hL : Links g rot) {v x : Nat}
    (hx : x ∈ rot v) (ht : twin x < g.eSize) (hn : (g.E (twin x)).nbr = v) :
    ∃ g', g.detachArc x = some g' ∧ Links g' (update rot v (without x (rot v))) ∧
      SameBut g g' ∧ (∀ e, (∀ w, e ∉ rot w) → g'.E e = g.E e) ∧ g'.E x = g.E x ∧
      g'.restoreArc x = some g := by
  have hv := hL.vert _ _ hx
  have hxr := hL.arc _ _ hx
  have h0 := hL.zero_not_mem v
  have hnd := hL.nodup v
  have hx0 : x ≠ 0 := by omega
  have h0d : ∀ c, 0 ∉ dir c (rot v) := fun c => by simpa using h0
  have hxd : ∀ c, x ∈ dir c (rot v) := fun c => by simpa using hx
  have hndd : ∀ c, (dir c (rot v)).Nodup := fun c => nodup_dir hnd
  have hnx : ∀ c, (g.E x).link c = nextIn (dir c (rot v)) x := fun c => hL.elink v c x hx
  have hself : ∀ c, (g.E x).link c ≠ x := by
    intro c
    rw [hnx c]
    have aux : ∀ (L : List Nat), L.Nodup → x ∈ L → nextIn L x ≠ x := by
      intro L
      induction L with
      | nil => simp
      | cons c T ih =>
        intro hn hm h
        have hn' := List.nodup_cons.1 hn
        by_cases hc : c = x
        · subst hc
          rw [nextIn_cons_self] at h
          rcases headD_mem_or (L := T) with hh | hh
          · exact hx0 (h ▸ hh.1)
          · exact hn'.1 (h ▸ hh)
        · rw [nextIn_cons_ne _ hc] at h
          refine ih hn'.2 ?_ h
          rcases List.mem_cons.1 hm with h | h
          · exact absurd h.symm hc
          · exact h
    exact aux _ (hndd c) (hxd c)
  -- the pointer that leads to `x` in direction `c` sits in the neighbour in direction `!c`
  have hback : ∀ c, ∀ e ∈ rot v, ((g.E e).link c = x ↔ e = (g.E x).link (!c)) := by
    intro c e he
    rw [hL.elink _ _ _ he, nextIn_eq_iff (hndd _) (h0d _) (mem_dir.2 he) (hxd _), ← dir_dir_not,
      hnx]
    exact eq_comm
  have hbackv : ∀ c, ((g.V v).link c = x ↔ (g.E x).link (!c) = 0) := by
    intro c
    rw [hL.vlink v _ hv.2, endIn, hnx,
      nextIn_eq_zero_iff (hndd _) (h0d _) (hxd _), ← dir_dir_not, Bool.not_not]
  have hmemlink : ∀ c, (g.E x).link c ≠ 0 → (g.E x).link c ∈ rot v := by
    intro c hz
    rw [hnx] at hz ⊢
    rcases nextIn_mem_or (dir c (rot v)) x with h | h
    · exact absurd h hz
    · exact mem_dir.1 h
  have key : ∀ c, ∀ e ∈ without x (rot v), nextIn (dir c (without x (rot v))) e =
      if e = (g.E x).link (!c) then (g.E x).link c else (g.E e).link c := by
    intro c e he
    rw [mem_without] at he
    rw [dir_without, nextIn_without (hndd c) he.2 hx0, ← hnx, ← hL.elink _ _ _ he.1]
    simp only [hback c e he.1]
  have keyv : ∀ c, endIn c (without x (rot v)) =
      if (g.E x).link (!c) = 0 then (g.E x).link c else (g.V v).link c := by
    intro c
    rw [endIn, dir_without, headD_without (hndd c), ← hnx]
    have : (dir c (rot v)).headD 0 = (g.V v).link c := by rw [hL.vlink v _ hv.2, endIn]
    rw [this]
    simp only [hbackv c]
  have hm : ∀ y ∈ without x (rot v), y ∈ rot v ∨ ((2 ≤ y ∧ y < g.eSize) ∧ ∀ w, y ∉ rot w) :=
    fun y hy => .inl (mem_without.1 hy).1
  have hlt : ∀ c, (g.E x).link c ≠ 0 → (g.E x).link c < g.eSize := fun c hz =>
    (hL.arc _ _ (hmemlink c hz)).2
  have hE1 : ∀ c, (g.E x).link c ≠ 0 → (g.E ((g.E x).link c)).link (!c) = x := by
    intro c hz
    rw [hback _ _ (hmemlink c hz)]; simp
  have hV1 : ∀ c, (g.E x).link c = 0 → (g.V v).link (!c) = x := by
    intro c hz
    rw [hbackv]; simpa using hz
  have hother : ∀ w, w ≠ v → ∀ e ∈ rot w, ∀ c, e ≠ (g.E x).link c := by
    intro w hwv e he c h
    by_cases hz : (g.E x).link c = 0
    · exact hL.zero_not_mem w (by rw [h, hz] at he; exact he)
    · exact hwv (hL.disj w v e he (h ▸ hmemlink c hz))
  have hfree : ∀ e, (∀ w, e ∉ rot w) → ∀ c, (g.E x).link c ≠ 0 → e ≠ (g.E x).link c := by
    intro e he c hz h
    exact he v (h ▸ hmemlink c hz)
  unfold detachArc
  rw [getAdj_eq hxr.2, getAdj_eq hxr.2]
  simp only [Option.bind_eq_bind, Option.bind_some]
  rw [getNbr_eq ht]
  have k0 := key false; have k1 := key true
  have kv0 := keyv false; have kv1 := keyv true
  have s0 := hself false; have s1 := hself true
  have m0 := hmemlink false; have m1 := hmemlink true
  have l0 := hlt false; have l1 := hlt true
  have e0 := hE1 false; have e1 := hE1 true
  have v0 := hV1 false; have v1 := hV1 true
  have o0 := fun w hw e he => hother w hw e he false
  have o1 := fun w hw e he => hother w hw e he true
  have f0 := fun e he => hfree e he false
  have f1 := fun e he => hfree e he true
  simp only [Bool.not_false, Bool.not_true] at k0 k1 kv0 kv1 e0 e1 v0 v1
  generalize hnn : (g.E x).link false = n at *
  generalize hpp : (g.E x).link true = p at *
  by_cases hnz : n = 0 <;> by_cases hpz : p = 0
  · -- only arc of the list
    simp only [hnz, hpz, ne_eq, not_true_eq_false, if_false, Option.bind_some, hn]
    rw [setArc_eq hv.2]
    simp only [Option.bind_some]
    rw [getNbr_eq (by simpa using ht)]
    simp only [Option.bind_some, updV_E, hn]
    rw [setArc_eq (by simpa using hv.2)]
    have hs := (sameBut_setLinkV g v true 0).trans <| sameBut_setLinkV _ v false 0
    refine ⟨_, rfl, links_replace hL hs hv (nodup_without hnd) hm ?_ ?_ ?_ ?_, hs, ?_, ?_, ?_⟩
    · intro c; cases c
      · rw [kv0]; simp [hnz, hpz]
      · rw [kv1]; simp [hnz, hpz]
    · intro w c hwv; simp [hwv]
    · intro c e he
      have hne : e ≠ 0 := fun h => h0 (h ▸ (mem_without.1 he).1)
      cases c
      · rw [k0 e he]; simp [hpz, hne]
      · rw [k1 e he]; simp [hnz, hne]
    · intro w c e hwv he; simp
    · intro e he; simp
    · simp
    · unfold restoreArc
      rw [getAdj_eq (by simpa using hxr.2), getAdj_eq (by simpa using hxr.2)]
      simp only [Option.bind_eq_bind, Option.bind_some, updV_E, hnn, hpp, hnz, hpz, ne_eq,
        not_true_eq_false, if_false]
      rw [getNbr_eq (by simpa using ht)]
      simp only [Option.bind_some, updV_E, hn]
      rw [setArc_eq (by simpa using hv.2)]
      simp only [Option.bind_some]
      rw [getNbr_eq (by simpa using ht)]
      simp only [Option.bind_some, updV_E, hn]
      rw [setArc_eq (by simpa using hv.2)]
      have hs2 := hs.trans <| (sameBut_setLinkV _ v true x).trans <| sameBut_setLinkV _ v false x
      congr 1
      apply hs2.eq
      · intro e c; simp
      · intro w c
        by_cases hwv : w = v
        · subst hwv; cases c <;> simp [v0 hnz, v1 hpz]
        · simp [hwv]
  · -- last arc of the list
    simp only [hnz, hpz, ne_eq, not_true_eq_false, not_false_eq_true, if_false, if_true,
      Option.bind_some, hn]
    rw [setArc_eq hv.2]
    simp only [Option.bind_some]
    rw [setAdj_eq (by simpa using l1 hpz)]
    have hs := (sameBut_setLinkV g v true p).trans <| sameBut_setLinkE _ p false 0
    refine ⟨_, rfl, links_replace hL hs hv (nodup_without hnd) hm ?_ ?_ ?_ ?_, hs, ?_, ?_, ?_⟩
    · intro c; cases c
      · rw [kv0]; simp [hpz]
      · rw [kv1]; simp [hnz]
    · intro w c hwv; simp [hwv]
    · intro c e he
      have hne : e ≠ 0 := fun h => h0 (h ▸ (mem_without.1 he).1)
      cases c
      · rw [k0 e he]; simp only [updE_E, updV_E]; split <;> simp [hnz]
      · rw [k1 e he]; simp only [updE_E, updV_E, hnz, hne, if_false]; split <;> simp
    · intro w c e hwv he; simp [o1 w hwv e he]
    · intro e he; simp [f1 e he hpz]
    · simp [Ne.symm s1]
    · unfold restoreArc
      rw [getAdj_eq (by simpa using hxr.2), getAdj_eq (by simpa using hxr.2)]
      simp only [Option.bind_eq_bind, Option.bind_some, updE_E, updV_E, Ne.symm s1, hnn, hpp, hnz,
        hpz, ne_eq, not_true_eq_false, not_false_eq_true, if_false, if_true]
      rw [getNbr_eq (by simpa using ht)]
      have hnn2 : ((if twin x = p then (g.E (twin x)).setLink false 0 else g.E (twin x)).nbr) = v := by
        split <;> simp [hn]
      simp only [Option.bind_some, updE_E, updV_E, hnn2]
      rw [setArc_eq (by simpa using hv.2)]
      simp only [Option.bind_some]
      rw [setAdj_eq (by simpa using l1 hpz)]
      have hs2 := hs.trans <| (sameBut_setLinkV _ v true x).trans <| sameBut_setLinkE _ p false x
      congr 1
      apply hs2.eq
      · intro e c
        by_cases h : e = p
        · subst h; cases c <;> simp [e1 hpz]
        · simp [h]
      · intro w c
        by_cases hwv : w = v
        · subst hwv; cases c <;> simp [v0 hnz]
        · simp [hwv]
  · -- first arc of the list
    simp only [hnz, hpz, ne_eq, not_true_eq_false, not_false_eq_true, if_false, if_true]
    rw [setAdj_eq (l0 hnz)]
    simp only [Option.bind_some]
    rw [getNbr_eq (by simpa using ht)]
    have hnn1 : (((g.updE n (·.setLink true 0)).E (twin x)).nbr) = v := by
      rw [updE_E]; split <;> simp [hn]
    simp only [Option.bind_some, hnn1]
    rw [setArc_eq (by simpa using hv.2)]
    have hs := (sameBut_setLinkE g n true 0).trans <| sameBut_setLinkV _ v false n
    refine ⟨_, rfl, links_replace hL hs hv (nodup_without hnd) hm ?_ ?_ ?_ ?_, hs, ?_, ?_, ?_⟩
    · intro c; cases c
      · rw [kv0]; simp [hpz]
      · rw [kv1]; simp [hnz]
    · intro w c hwv; simp [hwv]
    · intro c e he
      have hne : e ≠ 0 := fun h => h0 (h ▸ (mem_without.1 he).1)
      cases c
      · rw [k0 e he]; simp only [updE_E, updV_E, hpz, hne, if_false]; split <;> simp
      · rw [k1 e he]; simp only [updE_E, updV_E]; split <;> simp [hpz]
    · intro w c e hwv he; simp [o0 w hwv e he]
    · intro e he; simp [f0 e he hnz]
    · simp [Ne.symm s0]
    · unfold restoreArc
      rw [getAdj_eq (by simpa using hxr.2), getAdj_eq (by simpa using hxr.2)]
      simp only [Option.bind_eq_bind, Option.bind_some, updE_E, updV_E, Ne.symm s0, hnn, hpp, hnz,
        hpz, ne_eq, not_true_eq_false, not_false_eq_true, if_false, if_true]
      rw [setAdj_eq (by simpa using l0 hnz)]
      simp only [Option.bind_some]
      rw [getNbr_eq (by simpa using ht)]
      have hnn2 : ((((g.updE n (·.setLink true 0)).updV v (·.setLink false n)).updE n
          (·.setLink true x)).E (twin x)).nbr = v := by
        rw [updE_E, updV_E, updE_E]; split <;> simp [hn]
      simp only [Option.bind_some, hnn2]
      rw [setArc_eq (by simpa using hv.2)]
      have hs2 := hs.trans <| (sameBut_setLinkE _ n true x).trans <| sameBut_setLinkV _ v false x
      congr 1
      apply hs2.eq
      · intro e c
        by_cases h : e = n
        · subst h; cases c <;> simp [e0 hnz]
        · simp [h]
      · intro w c
        by_cases hwv : w = v
        · subst hwv; cases c <;> simp [v1 hpz]
        · simp [hwv]
  · -- inner arc
    simp only [hnz, hpz, ne_eq, not_false_eq_true, if_true]
    rw [setAdj_eq (l0 hnz)]
    simp only [Option.bind_some]
    rw [setAdj_eq (by simpa using l1 hpz)]
    have hs := (sameBut_setLinkE g n true p).trans <| sameBut_setLinkE _ p false n
    refine ⟨_, rfl, links_replace hL hs hv (nodup_without hnd) hm ?_ ?_ ?_ ?_, hs, ?_, ?_, ?_⟩
    · intro c; cases c
      · rw [kv0]; simp [hpz]
      · rw [kv1]; simp [hnz]
    · intro w c hwv; simp
    · intro c e he
      cases c
      · rw [k0 e he]; simp only [updE_E]
        by_cases h : e = p
        · simp [h]
        · simp only [h, if_false]; split <;> simp
      · rw [k1 e he]; simp only [updE_E]
        by_cases h : e = n
        · subst h; simp only [if_true]; split <;> simp
        · simp only [h, if_false]; split <;> simp
    · intro w c e hwv he; simp [o0 w hwv e he, o1 w hwv e he]
    · intro e he; simp [f0 e he hnz, f1 e he hpz]
    · simp [Ne.symm s0, Ne.symm s1]
    · unfold restoreArc
      rw [getAdj_eq (by simpa using hxr.2), getAdj_eq (by simpa using hxr.2)]
      simp only [Option.bind_eq_bind, Option.bind_some, updE_E, Ne.symm s0, Ne.symm s1, hnn, hpp,
        hnz, hpz, ne_eq, not_false_eq_true, if_false, if_true]
      rw [setAdj_eq (by simpa using l0 hnz)]
      simp only [Option.bind_some]
      rw [setAdj_eq (by simpa using l1 hpz)]
      have hs2 := hs.trans <| (sameBut_setLinkE _ n true x).trans <| sameBut_setLinkE _ p false x
      congr 1
      apply hs2.eq
      · intro e c
        simp only [updE_E]
        by_cases h : e = n <;> by_cases h' : e = p
        · cases c
          · simp only [h', if_true, if_pos (h'.symm.trans h)]; simp [e1 hpz]
          · simp only [h, if_true, if_pos (h.symm.trans h')]; simp [e0 hnz]
        · subst h; cases c <;> simp [h', e0 hnz]
        · subst h'; cases c <;> simp [h, e1 hpz]
        · simp [h, h']
      · intro w c; simp

theorem walkFrom_suffix {g : Graph} {rot : Nat → List Nat} (hL : Links g rot) {v : Nat} (b : Bool) :
    ∀ (K A : List Nat) (fuel : Nat), dir b (rot v) = A ++ K → K.length ≤ fuel →
      g.walkFrom b fuel (K.headD 0) = some K := by
  intro K
  induction K with
  | nil => intro A fuel _ _; cases fuel <;> simp [walkFrom]
  | cons a K ih =>
    intro A fuel h hf
    have ha : a ∈ rot v := by
      rw [← mem_dir (b := b), h]; simp
    have har := hL.arc _ _ ha
    have ha0 : a ≠ 0 := by omega
    cases fuel with
    | zero => simp at hf
    | succ fuel =>
      simp only [List.headD_cons, walkFrom, ha0, if_false]
      rw [getAdj_eq har.2, hL.elink v b a ha, h]
      have hnd : (A ++ a :: K).Nodup := h ▸ nodup_dir (hL.nodup v)
      have haA : a ∉ A := by
        rw [List.nodup_append] at hnd
        intro hh; exact hnd.2.2 a hh a (by simp) rfl
      rw [nextIn_append_right haA, nextIn_cons_self]
      have := ih (A ++ [a]) fuel (by simp [h]) (by simpa using hf)
      simp only [Option.bind_eq_bind, Option.bind_some]
      rw [this]; rfl

theorem nodup_length_le {L : List Nat} (hn : L.Nodup) {n : Nat} (h : ∀ x ∈ L, x < n) :
    L.length ≤ n := by
  have := Finset.card_le_card (s := L.toFinset) (t := Finset.range n) (by
    intro x hx; simp at hx ⊢; exact h x hx)
  rw [List.toFinset_card_of_nodup hn, Finset.card_range] at this
  exact this

/-- Iterating over an adjacency list visits exactly the represented list. -/
theorem walk_eq {g : Graph} {rot : Nat → List Nat} (hL : Links g rot) {v : Nat} (hv : v < g.vSize)
    (b : Bool) : g.walk b v = some (dir b (rot v)) := by
  unfold walk
  rw [getArc_eq hv, hL.vlink v b hv]
  exact walkFrom_suffix hL b _ [] _ rfl
    (nodup_length_le (nodup_dir (hL.nodup v)) (fun x hx => (hL.arc v x (mem_dir.1 hx)).2))

end Graph
end Verif
