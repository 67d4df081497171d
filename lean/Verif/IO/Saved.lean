import Verif.IO.Text
import Verif.Graph.Exec
import Verif.Graph.CapacityLemmas
import Mathlib.Data.Finset.Prod
import Mathlib.Data.Finset.Card
import Mathlib.Order.Interval.Finset.Nat

/-
The state of the edge store while `_ReadAdjList` reads a vertex: the vertex lists are linked as usual, and the arcs of the vertex
`v` that were there before form a circular list outside of all vertex lists.
-/
namespace Verif.Text
open Verif Verif.Graph Function

/-- The successor in a circular list. -/
def circIn (L : List Nat) (e : Nat) : Nat := if nextIn L e = 0 then L.headD 0 else nextIn L e

/-- The arc `e` belongs to the vertex `w`: it is in its list, or saved. -/
def Has (rot : Nat → List Nat) (v : Nat) (C : List Nat) (w e : Nat) : Prop := e ∈ rot w ∨ (w = v ∧ e ∈ C)

/-- The edge store while the vertex `v` is read; `C` is the saved list. -/
structure Saved (g : Graph) (rot : Nat → List Nat) (v : Nat) (C : List Nat) : Prop where
  links : Links g rot
  holes : g.holes = []
  even : g.arcCap % 2 = 0
  six : 6 ≤ g.arcCap
  room : g.M ≤ g.arcCap / 2
  hcap : g.arcCap / 2 ≤ g.holesCap
  nodup : C.Nodup
  apart : ∀ e ∈ C, ∀ w, e ∉ rot w
  small : ∀ w e, Has rot v C w e → 1 ≤ w ∧ w ≤ g.N
  owner : ∀ w e, Has rot v C w e → (g.E (twin e)).nbr = w
  twins : ∀ w e, Has rot v C w e → Has rot v C (g.E e).nbr (twin e)
  cover : ∀ e, 2 ≤ e → e < 2 + 2 * g.M → ∃ w, Has rot v C w e
  below : ∀ w e, Has rot v C w e → 2 ≤ e ∧ e < 2 + 2 * g.M
  zero : ∀ e, (∀ w, ¬ Has rot v C w e) → g.E e = {}
  circ : ∀ b e, e ∈ C → (g.E e).link b = circIn (dir b C) e
  uniq : ∀ w e e', Has rot v C w e → Has rot v C w e' → (g.E e).nbr = (g.E e').nbr → e = e'
  loop : ∀ w e, Has rot v C w e → (g.E e).nbr ≠ w

variable {g : Graph} {rot : Nat → List Nat} {v : Nat} {C : List Nat}

theorem Saved.lt (h : Saved g rot v C) {w e : Nat} (he : Has rot v C w e) : e < g.eSize := by
  have := (h.below w e he).2
  have := h.room
  have := h.even
  unfold eSize
  omega

theorem Saved.inUse (h : Saved g rot v C) : g.inUse = 2 + 2 * g.M := by
  unfold Graph.inUse
  rw [h.holes]
  simp
  omega

/-- Without saved arcs this is the invariant of the edge store. -/
theorem Saved.inv (h : Saved g rot v []) : Inv g rot := by
  have hh : ∀ w e, e ∈ rot w → Has rot v [] w e := fun w e he => .inl he
  have hb : ∀ w e, Has rot v [] w e → e ∈ rot w := fun w e he => he.resolve_right (by simp)
  constructor
  · exact h.links
  · exact fun w e he => h.owner w e (hh w e he)
  · exact fun w e he => hb _ _ (h.twins w e (hh w e he))
  · exact h.even
  · rw [h.holes]; exact h.room
  · rw [h.holes]; simp
  · rw [h.holes]; simp
  · intro e h1 h2
    rw [h.inUse] at h2
    obtain ⟨w, hw⟩ := h.cover e h1 h2
    exact .inl ⟨w, hb w e hw⟩
  · intro w e he; rw [h.inUse]; exact (h.below w e (hh w e he)).2
  · intro e he; exact h.zero e fun w hw => he w (hb w e hw)
  · exact h.hcap

/-- Two vertices that are not joined leave room for an edge in the simple graph. -/
theorem Saved.count (h : Saved g rot v C) {a b : Nat} (ha : 1 ≤ a ∧ a ≤ g.N) (hb : 1 ≤ b ∧ b ≤ g.N) (hab : a ≠ b)
    (hn : ∀ e, Has rot v C a e → (g.E e).nbr ≠ b) : 2 * (g.M : Int) < (g.N : Int) * ((g.N : Int) - 1) := by
  have hcard : ((Finset.Ico 2 (2 + 2 * g.M)).image fun e => ((g.E (twin e)).nbr, (g.E e).nbr)).card = 2 * g.M := by
    rw [Finset.card_image_of_injOn]
    · simp
    · intro e he e' he' heq
      simp only [Finset.coe_Ico, Set.mem_Ico] at he he'
      obtain ⟨w, hw⟩ := h.cover e he.1 he.2
      obtain ⟨w', hw'⟩ := h.cover e' he'.1 he'.2
      simp only [Prod.mk.injEq] at heq
      have : w = w' := by rw [← h.owner w e hw, ← h.owner w' e' hw']; exact heq.1
      subst this
      exact h.uniq w e e' hw hw' heq.2
  have hsub : ((Finset.Ico 2 (2 + 2 * g.M)).image fun e => ((g.E (twin e)).nbr, (g.E e).nbr)) ⊆
      (Finset.Icc 1 g.N).offDiag.erase (a, b) := by
    intro p hp
    simp only [Finset.mem_image, Finset.mem_Ico] at hp
    obtain ⟨e, he, rfl⟩ := hp
    obtain ⟨w, hw⟩ := h.cover e he.1 he.2
    have h1 := h.small w e hw
    have h2 := h.small _ _ (h.twins w e hw)
    have h3 := h.loop w e hw
    have h4 := h.owner w e hw
    rw [Finset.mem_erase, Finset.mem_offDiag, h4]
    refine ⟨?_, by simpa using h1, by simpa using h2, fun hc => h3 hc.symm⟩
    intro hc
    simp only [Prod.mk.injEq] at hc
    rw [hc.1] at hw
    exact hn e hw hc.2
  have hle := Finset.card_le_card hsub
  rw [hcard, Finset.card_erase_of_mem (by
    rw [Finset.mem_offDiag]
    exact ⟨by simpa using ha, by simpa using hb, hab⟩), Finset.offDiag_card] at hle
  simp only [Nat.card_Icc, Nat.add_sub_cancel] at hle
  have hN : 2 ≤ g.N := by omega
  have h2 : g.N * g.N - g.N = g.N * (g.N - 1) := by rw [Nat.mul_sub, Nat.mul_one]
  have h3 : 2 * 1 ≤ g.N * (g.N - 1) := Nat.mul_le_mul hN (by omega)
  have h4 : ((g.N * (g.N - 1) : Nat) : Int) = (g.N : Int) * ((g.N : Int) - 1) := by
    rw [Int.natCast_mul, Int.natCast_sub (by omega)]; rfl
  omega

/-- The state depends on the links, the ends and the counters only. -/
theorem Saved.congr {g' : Graph} (h : Saved g rot v C) (hN : g'.N = g.N) (hM : g'.M = g.M) (hA : g'.arcCap = g.arcCap)
    (hH : g'.holes = g.holes) (hC : g'.holesCap = g.holesCap) (hV : ∀ w b, (g'.V w).link b = (g.V w).link b)
    (hE : ∀ e b, (g'.E e).link b = (g.E e).link b) (hn : ∀ e, (g'.E e).nbr = (g.E e).nbr)
    (hz : ∀ e, (∀ w, ¬ Has rot v C w e) → g'.E e = g.E e) : Saved g' rot v C := by
  constructor
  · exact h.links.congr hN hA hE hV
  · rw [hH, h.holes]
  · rw [hA]; exact h.even
  · rw [hA]; exact h.six
  · rw [hM, hA]; exact h.room
  · rw [hC, hA]; exact h.hcap
  · exact h.nodup
  · exact h.apart
  · rw [hN]; exact h.small
  · intro w e he; rw [hn]; exact h.owner w e he
  · intro w e he; rw [hn]; exact h.twins w e he
  · rw [hM]; exact h.cover
  · rw [hM]; exact h.below
  · intro e he; rw [hz e he]; exact h.zero e he
  · intro b e he; rw [hE]; exact h.circ b e he
  · intro w e e' he he'; rw [hn, hn]; exact h.uniq w e e' he he'
  · intro w e he; rw [hn]; exact h.loop w e he

/-- Growing the arrays. -/
theorem Saved.grow (h : Saved g rot v C) {req : Nat} (hr : g.arcCap ≤ req) (hev : req % 2 = 0) (s c : _) :
    Saved { g with arcCap := req, holesCap := req / 2, stack := s, stackCap := c } rot v C := by
  have hc := h.room
  have h6 := h.six
  constructor
  · have hL := h.links
    constructor
    · exact hL.vlink
    · exact hL.elink
    · exact hL.nodup
    · intro w e he
      have := hL.arc w e he
      refine ⟨this.1, ?_⟩
      have h2 := this.2
      unfold eSize at h2 ⊢
      simp only
      omega
    · exact hL.vert
    · exact hL.disj
  · exact h.holes
  · exact hev
  · show 6 ≤ req; omega
  · show g.M ≤ req / 2; omega
  · exact Nat.le_refl _
  · exact h.nodup
  · exact h.apart
  · exact h.small
  · exact h.owner
  · exact h.twins
  · exact h.cover
  · exact h.below
  · exact h.zero
  · exact h.circ
  · exact h.uniq
  · exact h.loop

/-- The lists after adding an edge, its arc at `a` and its arc at `b` first. -/
def addRot (rot : Nat → List Nat) (a b x : Nat) : Nat → List Nat :=
  update (update rot a (twin x :: rot a)) b (x :: rot b)

theorem has_addRot {a b x w e : Nat} (hab : a ≠ b) :
    Has (addRot rot a b x) v C w e ↔ (e = twin x ∧ w = a) ∨ (e = x ∧ w = b) ∨ Has rot v C w e := by
  unfold Has addRot
  by_cases hb : w = b
  · subst hb
    rw [update_self]
    simp only [List.mem_cons, Ne.symm hab, and_false, false_or, and_true]
    tauto
  · rw [update_of_ne hb]
    by_cases ha : w = a
    · subst ha
      rw [update_self]
      simp only [List.mem_cons, hb, and_false, false_or, and_true]
      tauto
    · rw [update_of_ne ha]
      simp [ha, hb]

/-- `gp_AddEdge` with room in the arrays. -/
theorem Saved.add (h : Saved g rot v C) {a b : Nat} (ha : 1 ≤ a ∧ a ≤ g.N) (hb : 1 ≤ b ∧ b ≤ g.N) (hab : a ≠ b)
    (hn : ∀ e, Has rot v C a e → (g.E e).nbr ≠ b) (hM : g.M < g.arcCap / 2) :
    ∃ g', g.addEdge a 0 b 0 = some (g', .ok) ∧ Saved g' (addRot rot a b (2 + 2 * g.M)) v C ∧
      g'.N = g.N ∧ g'.M = g.M + 1 ∧ g'.flags = g.flags ∧
      (∀ e, (g'.E e).nbr = if e = 2 + 2 * g.M then a else if e = twin (2 + 2 * g.M) then b else (g.E e).nbr) ∧
      (∀ e, (g'.E e).flags = (g.E e).flags) ∧ (∀ w, (g'.V w).index = (g.V w).index) := by
  obtain ⟨x, hx⟩ : ∃ x, x = 2 + 2 * g.M := ⟨_, rfl⟩
  have hev := h.even
  have hxe : x < g.eSize := by unfold eSize; omega
  have hes : g.eSize % 2 = 0 := by unfold eSize; omega
  have hte := twin_lt hxe hes
  have htw : twin x = x + 1 := by rw [twin_eq, if_pos (by omega)]
  have htx := twin_ne x
  have hxf : ∀ w, ¬ Has rot v C w x := fun w hw => by have := (h.below w x hw).2; omega
  have htf : ∀ w, ¬ Has rot v C w (twin x) := fun w hw => by have := (h.below w _ hw).2; omega
  have hav : 1 ≤ a ∧ a < g.vSize := ⟨ha.1, by unfold vSize; omega⟩
  have hbv : 1 ≤ b ∧ b < g.vSize := ⟨hb.1, by unfold vSize; omega⟩
  have hslot : g.takeSlot = (x, g) := by unfold takeSlot; rw [h.holes, h.inUse, hx]
  rw [← hx]
  unfold addEdge
  rw [if_neg (by simp [vertexOk]; omega), if_neg (by omega)]
  simp only [linkOf, Option.bind_eq_bind, Option.bind_some, hslot, Int.toNat_natCast]
  rw [setNbr_eq hte]
  simp only [Option.bind_some]
  obtain ⟨g3, hg3, hL3, hs3, hz3⟩ := attachArc_nil (links_setNbr h.links (twin x) b) (v := a) (x := twin x) false
    (by simpa using hav) (by simpa using ⟨two_le_twin (by omega), hte⟩) (fun w hw => htf w (.inl hw))
  rw [hg3]
  simp only [Option.bind_some]
  have hsz3 : g3.eSize = g.eSize := hs3.eSize
  have hvz3 : g3.vSize = g.vSize := hs3.vSize
  rw [setNbr_eq (by rw [hsz3]; exact hxe)]
  simp only [Option.bind_some]
  have hfr : ∀ w, x ∉ update rot a (putEnd false (twin x) (rot a)) w := by
    intro w
    by_cases hw : w = a
    · subst hw
      rw [update_self, mem_putEnd]
      rintro (hc | hc)
      · exact htx hc.symm
      · exact hxf w (.inl hc)
    · rw [update_of_ne hw]; exact fun hc => hxf w (.inl hc)
  obtain ⟨g5, hg5, hL5, hs5, hz5⟩ := attachArc_nil (links_setNbr hL3 x a) (v := b) (x := x) false
    (by simpa [hvz3] using hbv) (by simpa [hsz3] using ⟨by omega, hxe⟩) hfr
  rw [hg5]
  simp only [Option.bind_some]
  have hnbr : ∀ e, (g5.E e).nbr = if e = x then a else if e = twin x then b else (g.E e).nbr := by
    intro e
    rw [hs5.nbr, updE_E]
    by_cases he : e = x
    · simp [he]
    · rw [if_neg he, hs3.nbr, updE_E]
      simp only [he, if_false]
      by_cases he' : e = twin x
      · simp [he']
      · simp only [he', if_false]
  have hfl : ∀ e, (g5.E e).flags = (g.E e).flags := by
    intro e
    rw [hs5.eflags, updE_E]
    have : (g3.E e).flags = (g.E e).flags := by
      rw [hs3.eflags, updE_E]
      split <;> rfl
    split <;> exact this
  have hdead : ∀ e, e ≠ x → e ≠ twin x → (∀ w, e ∉ rot w) → g5.E e = g.E e := by
    intro e h1 h2 h3
    rw [hz5 e h1, updE_E, if_neg h1, hz3 e h2, updE_E, if_neg h2]
    · exact h3
    · intro w
      by_cases hw : w = a
      · subst hw
        rw [update_self, mem_putEnd]
        rintro (hc | hc)
        · exact h2 hc
        · exact h3 w hc
      · rw [update_of_ne hw]; exact h3 w
  have hrot : update (update rot a (putEnd false (twin x) (rot a))) b
      (putEnd false x (update rot a (putEnd false (twin x) (rot a)) b)) = addRot rot a b x := by
    unfold addRot putEnd
    simp [update_of_ne (Ne.symm hab)]
  rw [hrot] at hL5
  have hN5 : g5.N = g.N := by rw [hs5.N]; exact hs3.N
  have hA5 : g5.arcCap = g.arcCap := by rw [hs5.arcCap]; exact hs3.arcCap
  have hM5 : g5.M = g.M := by rw [hs5.M]; exact hs3.M
  have hH5 : g5.holes = g.holes := by rw [hs5.holes]; exact hs3.holes
  have hC5 : g5.holesCap = g.holesCap := by rw [hs5.holesCap]; exact hs3.holesCap
  have hF5 : g5.flags = g.flags := by rw [hs5.flags]; exact hs3.flags
  have hm : ∀ w e, Has (addRot rot a b x) v C w e ↔ (e = twin x ∧ w = a) ∨ (e = x ∧ w = b) ∨ Has rot v C w e :=
    fun w e => has_addRot hab
  have hne : ∀ w e, Has rot v C w e → e ≠ x ∧ e ≠ twin x := by
    intro w e he
    exact ⟨fun hc => hxf w (hc ▸ he), fun hc => htf w (hc ▸ he)⟩
  have hold : ∀ w e, Has rot v C w e → (g5.E e).nbr = (g.E e).nbr := by
    intro w e he
    rw [hnbr, if_neg (hne w e he).1, if_neg (hne w e he).2]
  have hn' : ∀ e, Has rot v C b e → (g.E e).nbr ≠ a := by
    intro e he hc
    have h1 := h.twins b e he
    rw [hc] at h1
    exact hn _ h1 (by rw [h.owner b e he])
  refine ⟨_, rfl, ?_, hN5, by simp [hM5], hF5, hnbr, hfl, ?_⟩
  · constructor
    · exact hL5.congr rfl rfl (fun _ _ => rfl) (fun _ _ => rfl)
    · exact hH5.trans h.holes
    · show g5.arcCap % 2 = 0; rw [hA5]; exact h.even
    · show 6 ≤ g5.arcCap; rw [hA5]; exact h.six
    · show g5.M + 1 ≤ g5.arcCap / 2; rw [hM5, hA5]; omega
    · show g5.arcCap / 2 ≤ g5.holesCap; rw [hA5, hC5]; exact h.hcap
    · exact h.nodup
    · intro e he w hw
      have := (hm w e).1 (.inl hw)
      rcases this with hc | hc | hc | hc
      · exact htf v (.inr ⟨rfl, hc.1 ▸ he⟩)
      · exact hxf v (.inr ⟨rfl, hc.1 ▸ he⟩)
      · exact h.apart e he w hc
      · obtain ⟨rfl, -⟩ := hc
        have h1 : e ∉ rot w := h.apart e he w
        unfold addRot at hw
        by_cases hb' : w = b
        · subst hb'
          rw [update_self, List.mem_cons] at hw
          rcases hw with hw | hw
          · exact hxf w (.inr ⟨rfl, hw ▸ he⟩)
          · exact h1 hw
        · rw [update_of_ne hb'] at hw
          by_cases ha' : w = a
          · subst ha'
            rw [update_self, List.mem_cons] at hw
            rcases hw with hw | hw
            · exact htf w (.inr ⟨rfl, hw ▸ he⟩)
            · exact h1 hw
          · rw [update_of_ne ha'] at hw
            exact h1 hw
    · intro w e he
      show 1 ≤ w ∧ w ≤ g5.N
      rw [hN5]
      rcases (hm w e).1 he with ⟨-, rfl⟩ | ⟨-, rfl⟩ | he
      · exact ha
      · exact hb
      · exact h.small w e he
    · intro w e he
      show (g5.E (twin e)).nbr = w
      rw [hnbr]
      rcases (hm w e).1 he with ⟨rfl, rfl⟩ | ⟨rfl, rfl⟩ | he
      · simp
      · simp [htx]
      · have h1 : twin e ≠ x := fun hh => htf w (by rw [← hh, twin_twin]; exact he)
        have h2 : twin e ≠ twin x := fun hh => hxf w (by rw [← twin_inj hh]; exact he)
        rw [if_neg h1, if_neg h2]; exact h.owner w e he
    · intro w e he
      show Has _ v C (g5.E e).nbr (twin e)
      rw [hnbr, hm]
      rcases (hm w e).1 he with ⟨rfl, rfl⟩ | ⟨rfl, rfl⟩ | he
      · simp [htx]
      · simp
      · rw [if_neg (hne w e he).1, if_neg (hne w e he).2]
        exact .inr (.inr (h.twins w e he))
    · intro e h1 h2
      have h2' : e < 2 + 2 * (g5.M + 1) := h2
      rw [hM5] at h2'
      by_cases hc : e < 2 + 2 * g.M
      · obtain ⟨w, hw⟩ := h.cover e h1 hc
        exact ⟨w, (hm w e).2 (.inr (.inr hw))⟩
      · have : e = x ∨ e = x + 1 := by omega
        rcases this with rfl | hc
        · exact ⟨b, (hm b _).2 (.inr (.inl ⟨rfl, rfl⟩))⟩
        · exact ⟨a, (hm a e).2 (.inl ⟨by rw [htw]; exact hc, rfl⟩)⟩
    · intro w e he
      show 2 ≤ e ∧ e < 2 + 2 * (g5.M + 1)
      rw [hM5]
      rcases (hm w e).1 he with ⟨rfl, rfl⟩ | ⟨rfl, rfl⟩ | he
      · omega
      · omega
      · have := h.below w e he; omega
    · intro e he
      show g5.E e = {}
      have h1 : e ≠ x := fun hc => he b ((hm b e).2 (.inr (.inl ⟨hc, rfl⟩)))
      have h2 : e ≠ twin x := fun hc => he a ((hm a e).2 (.inl ⟨hc, rfl⟩))
      have h3 : ∀ w, ¬ Has rot v C w e := fun w hw => he w ((hm w e).2 (.inr (.inr hw)))
      rw [hdead e h1 h2 fun w hw => h3 w (.inl hw)]
      exact h.zero e h3
    · intro c e he
      show (g5.E e).link c = _
      have hh : Has rot v C v e := .inr ⟨rfl, he⟩
      rw [hdead e (hne v e hh).1 (hne v e hh).2 (h.apart e he)]
      exact h.circ c e he
    · intro w e e' he he' heq
      change (g5.E e).nbr = (g5.E e').nbr at heq
      have hxn : (g5.E x).nbr = a := by rw [hnbr, if_pos rfl]
      have htn : (g5.E (twin x)).nbr = b := by rw [hnbr, if_neg htx, if_pos rfl]
      rcases (hm w e).1 he with ⟨rfl, rfl⟩ | ⟨rfl, rfl⟩ | he1 <;> rcases (hm w e').1 he' with ⟨rfl, hw⟩ | ⟨rfl, hw⟩ | he2
      · rfl
      · exact absurd hw hab
      · rw [htn, hold w e' he2] at heq
        exact absurd heq.symm (hn e' he2)
      · exact absurd hw.symm hab
      · rfl
      · rw [hxn, hold w e' he2] at heq
        exact absurd heq.symm (hn' e' he2)
      · subst hw
        rw [htn, hold w e he1] at heq
        exact absurd heq (hn e he1)
      · subst hw
        rw [hxn, hold w e he1] at heq
        exact absurd heq (hn' e he1)
      · rw [hold w e he1, hold w e' he2] at heq
        exact h.uniq w e e' he1 he2 heq
    · intro w e he
      show (g5.E e).nbr ≠ w
      rcases (hm w e).1 he with ⟨rfl, rfl⟩ | ⟨rfl, rfl⟩ | he
      · rw [hnbr, if_neg htx, if_pos rfl]; exact Ne.symm hab
      · rw [hnbr, if_pos rfl]; exact hab
      · rw [hold w e he]; exact h.loop w e he
  · intro w
    show (g5.V w).index = _
    rw [hs5.index]
    exact hs3.index w

end Verif.Text
