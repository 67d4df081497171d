import Verif.Draw.Place
import Verif.Draw.Check

/-
The columns computed for the edges: the sweep.
-/
namespace Verif
namespace Draw
open Graph Props LC DFS PGraph

variable {s : PGraph} {rot : Nat → List Nat} {par : Nat → Nat} {c : Ctx}

/-- `LCAppend`. -/
theorem append_ins {o : Coll} {L : List Nat} {w : Nat} (hr : Ring o L) (hnd : L.Nodup) (hw : w ∉ L)
    (hb : ∀ y ∈ L, y ≠ 0 ∧ y < o.N) (hwb : w < o.N) :
    ∃ o', LC.append o (L.headD 0) w = some (o', (L ++ [w]).headD 0) ∧ o'.N = o.N ∧ Ring o' (L ++ [w]) := by
  cases L with
  | nil =>
    refine ⟨{ { o with next := fun j => if j = w then w else o.next j } with prev := fun j => if j = w then w else o.prev j }, ?_, rfl, ?_⟩
    · unfold LC.append single
      rw [if_pos (show ([] : List Nat).headD 0 = 0 from rfl)]
      simp only [Option.bind_eq_bind, Option.pure_def]
      rw [wrNext_eq hwb, Option.bind_some, wrPrev_eq (by exact hwb), Option.bind_some]
      rfl
    · rw [List.nil_append, ring_iff]
      simp [R]
  | cons a T =>
    obtain ⟨d, h1, h2, h3, -⟩ := linkBefore_ok hr hnd hw (fun y hy => (hb y hy).2) hwb
    refine ⟨d, ?_, h2, by simpa using h3⟩
    unfold LC.append
    have ha : (a :: T).headD 0 = a := rfl
    rw [ha, if_neg (hb a (by simp)).1, h1]
    rfl

/-- The row of the owner of an arc is above the row of its other end. -/
def Down (s : PGraph) (rot : Nat → List Nat) (c : Ctx) (u e : Nat) : Prop := e ∈ rot u ∧ (c.VI u).pos < (c.VI (s.g.E e).nbr).pos

/-- The state of the sweep when the arcs with `T` have been looked at. -/
structure SInv (s : PGraph) (rot : Nat → List Nat) (par : Nat → Nat) (c : Ctx) (w : Sweep) (L : List Nat) (T : Nat → Prop) : Prop where
  size : w.list.N = if s.g.M > 0 then 1 + s.g.M else 0
  ring : Ring w.list L
  nodup : L.Nodup
  head : w.head = L.headD 0
  mem : ∀ i, i ∈ L ↔ ∃ u e, Down s rot c u e ∧ T e ∧ i = e / 2
  gen : ∀ x, IsPrimary s x → par x ≠ 0 → (w.gen x = 0 ∧ ∀ u e, Down s rot c u e → T e → (s.g.E e).nbr ≠ x) ∨
    ∃ u e : Nat, w.gen x = (e : Int) ∧ Down s rot c u e ∧ T e ∧ (s.g.E e).nbr = x

theorem SInv.congr {w L T T'} (h : SInv s rot par c w L T) (hT : ∀ u e, e ∈ rot u → (T e ↔ T' e)) : SInv s rot par c w L T' := by
  refine ⟨h.size, h.ring, h.nodup, h.head, fun i => ?_, fun x hx hp => ?_⟩
  · rw [h.mem]
    constructor
    · rintro ⟨u, e, h1, h2, h3⟩
      exact ⟨u, e, h1, (hT u e h1.1).1 h2, h3⟩
    · rintro ⟨u, e, h1, h2, h3⟩
      exact ⟨u, e, h1, (hT u e h1.1).2 h2, h3⟩
  · rcases h.gen x hx hp with ⟨h1, h2⟩ | ⟨u, e, h1, h2, h3, h4⟩
    · exact .inl ⟨h1, fun u e h3 h4 => h2 u e h3 ((hT u e h3.1).2 h4)⟩
    · exact .inr ⟨u, e, h1, h2, (hT u e h2.1).1 h3, h4⟩

/-- An arc that does not lead down. -/
theorem SInv.skip {w L T a} (h : SInv s rot par c w L T) (ha : ∀ u, ¬ Down s rot c u a) :
    SInv s rot par c w L (fun x => T x ∨ x = a) := by
  refine ⟨h.size, h.ring, h.nodup, h.head, fun i => ?_, fun x hx hp => ?_⟩
  · rw [h.mem]
    constructor
    · rintro ⟨u, e, h1, h2, h3⟩
      exact ⟨u, e, h1, .inl h2, h3⟩
    · rintro ⟨u, e, h1, h2 | h2, h3⟩
      · exact ⟨u, e, h1, h2, h3⟩
      · exact absurd (h2 ▸ h1) (ha u)
  · rcases h.gen x hx hp with ⟨h1, h2⟩ | ⟨u, e, h1, h2, h3, h4⟩
    · refine .inl ⟨h1, fun u e h3 h4 => ?_⟩
      rcases h4 with h4 | h4
      · exact h2 u e h3 h4
      · exact absurd (h4 ▸ h3) (ha u)
    · exact .inr ⟨u, e, h1, h2, .inl h3, h4⟩

theorem SInv.fresh {w L T a} (h : SInv s rot par c w L T) (h1 : ¬ T a) (h2 : ¬ T (twin a)) : a / 2 ∉ L := by
  intro hm
  obtain ⟨u, e, -, hT, he⟩ := (h.mem _).1 hm
  rcases div_eq_cases he with rfl | rfl
  · exact h1 hT
  · rw [twin_twin] at h2
    exact h2 hT

/-- An arc that leads down. -/
theorem SInv.add {w w' L L' T a u} (h : SInv s rot par c w L T) (ha : Down s rot c u a)
    (hs : w'.list.N = w.list.N) (hr : Ring w'.list L') (hnd : L'.Nodup) (hm : ∀ x, x ∈ L' ↔ x ∈ L ∨ x = a / 2)
    (hh : w'.head = L'.headD 0)
    (hg : (w'.gen = Function.update w.gen (s.g.E a).nbr (a : Int)) ∨ (w.gen (s.g.E a).nbr ≠ 0 ∧ w'.gen = w.gen)) :
    SInv s rot par c w' L' (fun x => T x ∨ x = a) := by
  refine ⟨by rw [hs, h.size], hr, hnd, hh, fun i => ?_, fun x hx hp => ?_⟩
  · rw [hm, h.mem]
    constructor
    · rintro (⟨u, e, h1, h2, h3⟩ | rfl)
      · exact ⟨u, e, h1, .inl h2, h3⟩
      · exact ⟨u, a, ha, .inr rfl, rfl⟩
    · rintro ⟨u, e, h1, h2 | h2, h3⟩
      · exact .inl ⟨u, e, h1, h2, h3⟩
      · exact .inr (by rw [h3, h2])
  · have hold : w'.gen x = w.gen x → (s.g.E a).nbr ≠ x ∨ w.gen x ≠ 0 → (w'.gen x = 0 ∧ ∀ u e, Down s rot c u e →
        (T e ∨ e = a) → (s.g.E e).nbr ≠ x) ∨ ∃ u e : Nat, w'.gen x = (e : Int) ∧ Down s rot c u e ∧ (T e ∨ e = a) ∧ (s.g.E e).nbr = x := by
      intro hge hor
      rcases h.gen x hx hp with ⟨h1, h2⟩ | ⟨u, e, h1, h2, h3, h4⟩
      · refine .inl ⟨by rw [hge, h1], fun u e h3 h4 => ?_⟩
        rcases h4 with h4 | h4
        · exact h2 u e h3 h4
        · rcases hor with hor | hor
          · rw [h4]; exact hor
          · exact absurd h1 hor
      · exact .inr ⟨u, e, by rw [hge, h1], h2, .inl h3, h4⟩
    by_cases hx' : (s.g.E a).nbr = x
    · rcases hg with hg | ⟨hg0, hg⟩
      · exact .inr ⟨u, a, by rw [hg, ← hx', Function.update_self], ha, .inr rfl, hx'⟩
      · exact hold (by rw [hg]) (.inr (by rw [← hx']; exact hg0))
    · rcases hg with hg | ⟨hg0, hg⟩
      · exact hold (by rw [hg, Function.update_of_ne (Ne.symm hx')]) (.inl hx')
      · exact hold (by rw [hg]) (.inl hx')

theorem SInv.bound {w L T} (h : SInv s rot par c w L T) (hp : PInv s rot) (hh : s.g.holes = []) : ∀ i ∈ L, i ≠ 0 ∧ i < w.list.N := by
  intro i hi
  obtain ⟨u, e, h1, -, rfl⟩ := (h.mem i).1 hi
  have h2 := (hp.inv.links.arc u e h1.1).1
  have h3 := hp.inv.below u e h1.1
  unfold inUse at h3
  rw [hh, List.length_nil] at h3
  rw [h.size, if_pos (by omega)]
  omega

theorem half_bound (hp : PInv s rot) (hh : s.g.holes = []) {w L T} (h : SInv s rot par c w L T) {u e : Nat} (he : e ∈ rot u) :
    e / 2 < w.list.N := by
  have h2 := (hp.inv.links.arc u e he).1
  have h3 := hp.inv.below u e he
  unfold inUse at h3
  rw [hh, List.length_nil] at h3
  rw [h.size, if_pos (by omega)]
  omega

theorem nbr_primary (hp : PInv s rot) {u e : Nat} (he : e ∈ rot u) : IsPrimary s (s.g.E e).nbr :=
  hp.prim _ _ (hp.inv.twins u e he)

/-- The twin of a treated arc of `v` that leads down is not an arc of `v`. -/
theorem twin_not_down (hp : PInv s rot) {v a b : Nat} (ha : Down s rot c v a) (hb : b ∈ rot v) : b ≠ twin a := by
  intro e
  have h1 := hp.inv.twins v a ha.1
  rw [← e] at h1
  have h2 := hp.inv.links.disj _ _ _ h1 hb
  have := ha.2
  rw [h2] at this
  omega

/-- The arcs of a root. -/
theorem rootArcs_spec (hp : PInv s rot) (hh : s.g.holes = []) {v : Nat} : ∀ (es : List Nat) (fuel e : Nat) (w : Sweep) (L : List Nat)
    (T : Nat → Prop), s.g.walkFrom false fuel e = some es → SInv s rot par c w L T → es.Nodup →
    (∀ a ∈ es, Down s rot c v a ∧ ¬ T a ∧ ¬ T (twin a)) →
    ∃ w' L', rootArcs s.g fuel e w = some w' ∧ SInv s rot par c w' L' (fun x => T x ∨ x ∈ es) := by
  intro es
  induction es with
  | nil =>
    intro fuel e w L T hw h _ _
    rcases walkFrom_cons hw with ⟨rfl, _⟩ | ⟨_, _, _, _, _, h, _⟩
    · exact ⟨w, L, by cases fuel <;> simp [rootArcs], h.congr (by simp)⟩
    · cases h
  | cons a es ih =>
    intro fuel e' w L T hw h hnd hx
    rcases walkFrom_cons hw with ⟨_, h⟩ | ⟨he, fuel', n, es', rfl, h', ha, hr⟩
    · cases h
    · cases h'
      obtain ⟨hd, hT1, hT2⟩ := hx a (by simp)
      rw [List.nodup_cons] at hnd
      have hlt := (hp.inv.links.arc v a hd.1).2
      have hfr := h.fresh hT1 hT2
      obtain ⟨o', i1, i2, i3⟩ := append_ins h.ring h.nodup hfr (h.bound hp hh) (half_bound hp hh h hd.1)
      have hn := nbr_primary hp hd.1
      have hnlt : (s.g.E a).nbr < 1 + s.g.N := by have := hn.2; omega
      have hadd := h.add (w' := { gen := Function.update w.gen (s.g.E a).nbr (a : Int), list := o', head := (L ++ [a / 2]).headD 0 })
        (L' := L ++ [a / 2]) hd i2 i3 (List.nodup_append.2 ⟨h.nodup, by simp, fun x hx y hy e => by
          rw [List.mem_singleton] at hy
          exact hfr (hy ▸ e ▸ hx)⟩) (fun x => by simp) rfl (.inl rfl)
      obtain ⟨w', L', j1, j2⟩ := ih fuel' n _ _ _ hr hadd hnd.2 (by
        intro b hb
        obtain ⟨k1, k2, k3⟩ := hx b (by simp [hb])
        refine ⟨k1, fun hq => ?_, fun hq => ?_⟩
        · rcases hq with hq | hq
          · exact k2 hq
          · exact hnd.1 (hq ▸ hb)
        · rcases hq with hq | hq
          · exact k3 hq
          · exact twin_not_down hp k1 (hq ▸ hd.1) rfl)
      refine ⟨w', L', ?_, j2.congr (fun u x _ => by rw [List.mem_cons]; tauto)⟩
      unfold rootArcs
      rw [if_neg he, h.head, i1]
      simp only [Option.bind_eq_bind, Option.bind_some]
      rw [getNbr_eq hlt, Option.bind_some]
      have hwr : wrGen s.g { gen := w.gen, list := o', head := (L ++ [a / 2]).headD 0 } (s.g.E a).nbr (a : Int) =
          some { gen := Function.update w.gen (s.g.E a).nbr (a : Int), list := o', head := (L ++ [a / 2]).headD 0 } := if_pos hnlt
      rw [hwr, Option.bind_some, ha, Option.bind_some]
      exact j1

/-- One arc of another vertex. -/
theorem downArc_spec (hp : PInv s rot) (hh : s.g.holes = []) {v p a ins : Nat} (hv : (c.VI v).pos = p) {w : Sweep} {L : List Nat}
    {T : Nat → Prop} (h : SInv s rot par c w L T) (ha : a ∈ rot v) (hT : Down s rot c v a → ¬ T a ∧ ¬ T (twin a)) (hi : ins ∈ L) :
    ∃ ins' w' L', downArc s.g c p a ins w = some (ins', w') ∧ ins' ∈ L' ∧ SInv s rot par c w' L' (fun x => T x ∨ x = a) := by
  have hlt := (hp.inv.links.arc v a ha).2
  have hn := nbr_primary hp ha
  have hnlt : (s.g.E a).nbr < 1 + s.g.N := by have := hn.2; omega
  have hrd : rdDV c s.g (s.g.E a).nbr = some (c.VI (s.g.E a).nbr) := if_pos hnlt
  unfold downArc
  rw [getNbr_eq hlt]
  simp only [Option.bind_eq_bind, Option.bind_some]
  rw [hrd, Option.bind_some]
  by_cases hd : (c.VI (s.g.E a).nbr).pos > p
  · have hD : Down s rot c v a := ⟨ha, by rw [hv]; exact hd⟩
    obtain ⟨hT1, hT2⟩ := hT hD
    have hfr := h.fresh hT1 hT2
    obtain ⟨o', L', i1, i2, i3, i4, i5⟩ := insertAfter_ins h.ring h.nodup hi hfr (fun y hy => (h.bound hp hh y hy).2) (half_bound hp hh h ha)
    have hhead : w.head = L'.headD 0 := by
      rw [h.head, List.headD_eq_head?_getD, List.headD_eq_head?_getD, i4]
    rw [if_pos hd, i1]
    simp only [Option.bind_some]
    have hrg : rdGen s.g { gen := w.gen, list := o', head := w.head } (s.g.E a).nbr = some (w.gen (s.g.E a).nbr) := if_pos hnlt
    rw [hrg, Option.bind_some]
    by_cases h0 : w.gen (s.g.E a).nbr = 0
    · rw [if_pos h0]
      have hwr : wrGen s.g { gen := w.gen, list := o', head := w.head } (s.g.E a).nbr (a : Int) =
          some { gen := Function.update w.gen (s.g.E a).nbr (a : Int), list := o', head := w.head } := if_pos hnlt
      rw [hwr]
      exact ⟨_, _, L', rfl, (i5.mem _).2 (.inr rfl), h.add hD i2 i3 i5.nodup i5.mem hhead (.inl rfl)⟩
    · rw [if_neg h0]
      exact ⟨_, _, L', rfl, (i5.mem _).2 (.inr rfl), h.add hD i2 i3 i5.nodup i5.mem hhead (.inr ⟨h0, rfl⟩)⟩
  · rw [if_neg hd]
    refine ⟨ins, w, L, rfl, hi, h.skip ?_⟩
    intro u hu
    have := hp.inv.links.disj _ _ _ hu.1 ha
    subst this
    have := hu.2
    rw [hv] at this
    exact hd this

theorem downArcs_spec (hp : PInv s rot) (hh : s.g.holes = []) {v p e : Nat} (hv : (c.VI v).pos = p) :
    ∀ (es : List Nat) (fuel cur ins : Nat) (w : Sweep) (L : List Nat) (T : Nat → Prop), cur = (es ++ [e]).headD 0 →
    List.IsChain (fun x y => Test.nextCirc s.g x = some y) (es ++ [e]) → es.length ≤ fuel → SInv s rot par c w L T → ins ∈ L →
    es.Nodup → e ∉ es → (∀ a ∈ es, a ∈ rot v ∧ (Down s rot c v a → ¬ T a ∧ ¬ T (twin a))) →
    ∃ w' L', downArcs s.g c p e fuel cur ins w = some w' ∧ SInv s rot par c w' L' (fun x => T x ∨ x ∈ es) := by
  intro es
  induction es with
  | nil =>
    intro fuel cur ins w L T hc _ _ h _ _ _ _
    have : cur = e := hc
    subst this
    exact ⟨w, L, by cases fuel <;> simp [downArcs], h.congr (by simp)⟩
  | cons a es ih =>
    intro fuel cur ins w L T hc hch hf h hi hnd he hx
    have hca : cur = a := hc
    subst hca
    cases fuel with
    | zero => simp at hf
    | succ fuel =>
      rw [List.nodup_cons] at hnd
      rw [List.mem_cons, not_or] at he
      obtain ⟨ha, hT⟩ := hx cur (by simp)
      obtain ⟨ins', w', L', i1, i2, i3⟩ := downArc_spec hp hh hv h ha hT hi
      have hnx : Test.nextCirc s.g cur = some ((es ++ [e]).headD 0) := by
        cases es with
        | nil => exact (List.isChain_cons_cons.1 hch).1
        | cons b es => exact (List.isChain_cons_cons.1 hch).1
      have hch' : List.IsChain (fun x y => Test.nextCirc s.g x = some y) (es ++ [e]) := (List.isChain_cons.1 hch).2
      obtain ⟨w'', L'', j1, j2⟩ := ih fuel _ ins' w' L' _ rfl hch' (by simp at hf; omega) i3 i2 hnd.2 he.2 (by
        intro b hb
        obtain ⟨k1, k2⟩ := hx b (by simp [hb])
        refine ⟨k1, fun hd => ⟨fun hq => ?_, fun hq => ?_⟩⟩
        · rcases hq with hq | hq
          · exact (k2 hd).1 hq
          · exact hnd.1 (hq ▸ hb)
        · rcases hq with hq | hq
          · exact (k2 hd).2 hq
          · exact twin_not_down hp hd (hq ▸ ha) rfl)
      refine ⟨w'', L'', ?_, j2.congr (fun u x _ => by rw [List.mem_cons]; tauto)⟩
      unfold downArcs
      rw [if_neg (Ne.symm he.1), i1]
      simp only [Option.bind_eq_bind, Option.bind_some]
      rw [hnx, Option.bind_some]
      exact j1

end Draw
end Verif
