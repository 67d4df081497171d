import Verif.Spec.DFS
import Verif.Graph.Store

/-
The invariant of the depth-first search of gp_CreateDFSTree, on an abstract state.
-/
namespace Verif.DFS
open Verif Verif.Props Function

/-- What the search records. -/
structure Rec where
  idx : Nat → Nat
  par : Nat → Nat
  ty : Nat → Nat

/-- What does not change: arcs of each vertex and their ends. -/
structure Static (N : Nat) (rot : Nat → List Nat) (hd : Nat → Nat) : Prop where
  nodup : ∀ u, (rot u).Nodup
  owner : ∀ u e, e ∈ rot u → hd (twin e) = u
  twins : ∀ u e, e ∈ rot u → twin e ∈ rot (hd e)
  prim : ∀ u e, e ∈ rot u → 1 ≤ u ∧ u ≤ N

theorem Static.hdPrim {N rot hd} (h : Static N rot hd) {u e} (he : e ∈ rot u) : 1 ≤ hd e ∧ hd e ≤ N :=
  h.prim _ _ (h.twins u e he)

theorem Static.disj {N rot hd} (h : Static N rot hd) {u v e} (he : e ∈ rot u) (he' : e ∈ rot v) : u = v := by
  rw [← h.owner u e he, ← h.owner v e he']

/-- An edge has its final types: tree arc from parent to child, or forward arc to a descendant. -/
def Typed (hd : Nat → Nat) (r : Rec) (u e : Nat) : Prop :=
  (r.ty e = 14 ∧ r.ty (twin e) = 6 ∧ r.par (hd e) = u) ∨ (r.ty e = 10 ∧ r.ty (twin e) = 2 ∧ Anc r.par u (hd e))

/-- The invariant. `order` are the visited vertices, latest first. -/
structure DInv (N : Nat) (rot : Nat → List Nat) (hd : Nat → Nat) (r : Rec) (order : List Nat)
    (stk : List (Nat × Nat)) : Prop where
  range : ∀ u ∈ order, 1 ≤ u ∧ u ≤ N
  nodup : order.Nodup
  idxR : ∀ u ∈ order, 1 ≤ r.idx u ∧ r.idx u ≤ order.length
  idxInj : ∀ u ∈ order, ∀ w ∈ order, r.idx u = r.idx w → u = w
  parOut : ∀ u, 1 ≤ u → u ≤ N → u ∉ order → r.par u = 0
  parIn : ∀ u ∈ order, r.par u = 0 ∨ (r.par u ∈ order ∧ r.idx (r.par u) < r.idx u ∧
    ∃ e ∈ rot (r.par u), hd e = u ∧ r.ty e = 14)
  stkIn : ∀ q ∈ stk, q.1 ∈ order ∧ q.2 ∈ rot q.1 ∧ hd q.2 ≠ q.1 ∧ (hd q.2 ∈ order → Anc r.par q.1 (hd q.2)) ∧
    r.ty q.2 = 0 ∧ r.ty (twin q.2) = 0
  chain : stk.Pairwise fun a b => AncEq r.par b.1 a.1
  stkNodup : (stk.map fun q => q.2 / 2).Nodup
  fresh : ∀ u ∈ order, ∀ e ∈ rot u, hd e ∉ order → (u, e) ∈ stk
  white : ∀ u, ∀ e ∈ rot u, u ∉ order ∨ hd e ∉ order → r.ty e = 0
  anc : ∀ u ∈ order, ∀ e ∈ rot u, hd e ∈ order → AncEq r.par u (hd e) ∨ AncEq r.par (hd e) u
  typed : ∀ u ∈ order, ∀ e ∈ rot u, hd e ∈ order → hd e ≠ u →
    (u, e) ∈ stk ∨ (hd e, twin e) ∈ stk ∨ Typed hd r u e ∨ Typed hd r (hd e) (twin e)
  loops : ∀ u, ∀ e ∈ rot u, hd e = u → r.ty e = 0
  child : ∀ u, ∀ e ∈ rot u, r.ty e = 14 → r.par (hd e) = u
  uniq : ∀ u u', ∀ e ∈ rot u, ∀ e' ∈ rot u', r.ty e = 14 → r.ty e' = 14 → hd e = hd e' → e = e'
  comps : ∀ a ∈ order, ∀ b ∈ order, r.par a = 0 → r.par b = 0 → a ≠ b → ¬ Linked rot hd a b
  done : ∀ u ∈ order, ∀ w ∈ order, r.idx u < r.idx w → ¬ AncEq r.par u w → ∀ q ∈ stk, ¬ AncEq r.par u q.1
  interval : ∀ u ∈ order, ∀ w ∈ order, ∀ x ∈ order, r.idx u < r.idx w → r.idx w < r.idx x →
    ¬ AncEq r.par u w → ¬ AncEq r.par u x

variable {N : Nat} {rot : Nat → List Nat} {hd : Nat → Nat}

/-- Nothing visited. -/
theorem DInv.start (r : Rec) (hp : ∀ u, 1 ≤ u → u ≤ N → r.par u = 0) (ht : ∀ u, ∀ e ∈ rot u, r.ty e = 0) :
    DInv N rot hd r [] [] := by
  refine ⟨by simp, by simp, by simp, by simp, fun u h1 h2 _ => hp u h1 h2, by simp, by simp, by simp, by simp, by simp,
    fun u e he _ => ht u e he, by simp, by simp, fun u e he _ => ht u e he, ?_, ?_, by simp, by simp, by simp⟩
  · intro u e he h; rw [ht u e he] at h; omega
  · intro u u' e he e' _ h; rw [ht u e he] at h; omega

/-- Setting a fresh vertex's parent does not change ancestors among the others. -/
theorem ancEq_update {par : Nat → Nat} {S : List Nat} (hS : ∀ u ∈ S, par u = 0 ∨ par u ∈ S) {x : Nat} (hx : x ∉ S) (p : Nat)
    {a b : Nat} (hb : b ∈ S) : AncEq (update par x p) a b ↔ AncEq par a b := by
  constructor
  · intro h
    induction h with
    | refl => exact .refl _
    | @up b h1 _ ih =>
      have hne : b ≠ x := fun e => hx (e ▸ hb)
      rw [update_of_ne hne] at h1 ih
      rcases hS b hb with h | h
      · exact absurd h h1
      · exact .up h1 (ih h)
  · intro h
    induction h with
    | refl => exact .refl _
    | @up b h1 _ ih =>
      have hne : b ≠ x := fun e => hx (e ▸ hb)
      rcases hS b hb with h | h
      · exact absurd h h1
      · refine .up (by rw [update_of_ne hne]; exact h1) ?_
        rw [update_of_ne hne]; exact ih h

theorem ancEq_mem {par : Nat → Nat} {S : List Nat} (hS : ∀ u ∈ S, par u = 0 ∨ par u ∈ S) {a b : Nat}
    (h : AncEq par a b) (hb : b ∈ S) : a ∈ S := by
  induction h with
  | refl => exact hb
  | up h1 _ ih =>
    rcases hS _ hb with h | h
    · exact absurd h h1
    · exact ih h

theorem DInv.closed {r order stk} (h : DInv N rot hd r order stk) : ∀ u ∈ order, r.par u = 0 ∨ r.par u ∈ order :=
  fun u hu => (h.parIn u hu).imp id And.left

theorem DInv.ancIdx {r order stk} (h : DInv N rot hd r order stk) {a b : Nat} (hb : b ∈ order)
    (ha : AncEq r.par a b) : r.idx a ≤ r.idx b := by
  induction ha with
  | refl => exact Nat.le_refl _
  | up h1 _ ih =>
    rcases h.parIn _ hb with h' | h'
    · exact absurd h' h1
    · exact Nat.le_trans (ih h'.1) (Nat.le_of_lt h'.2.1)

/-- The record after visiting `u` with number `d` and parent `p`; `t` are the new types. -/
def Rec.visit (r : Rec) (u d p : Nat) (ty : Nat → Nat) : Rec :=
  { idx := update r.idx u d, par := update r.par u p, ty := ty }

/-- The arcs pushed when `u` is visited: those to unvisited ends, the last arc on top. -/
def pushed (rot : Nat → List Nat) (hd : Nat → Nat) (order : List Nat) (u : Nat) : List (Nat × Nat) :=
  (((rot u).filter fun e => !decide (hd e ∈ u :: order)).map fun e => (u, e)).reverse

theorem mem_pushed {order u} {q : Nat × Nat} : q ∈ pushed rot hd order u ↔
    q.1 = u ∧ q.2 ∈ rot u ∧ hd q.2 ∉ u :: order := by
  unfold pushed
  rw [List.mem_reverse, List.mem_map]
  constructor
  · rintro ⟨e, he, rfl⟩
    rw [List.mem_filter] at he
    exact ⟨rfl, he.1, by simpa using he.2⟩
  · rintro ⟨h1, h2, h3⟩
    refine ⟨q.2, List.mem_filter.2 ⟨h2, by simpa using h3⟩, ?_⟩
    rw [← h1]

/-- Types after a tree arc is found. -/
def treeTy (ty : Nat → Nat) (e : Nat) : Nat → Nat := update (update ty e 14) (twin e) 6

/-- Types after a forward arc is found. -/
def fwdTy (ty : Nat → Nat) (e : Nat) : Nat → Nat := update (update ty e 10) (twin e) 2

theorem twin_ne (e : Nat) : twin e ≠ e := by rw [twin_eq]; split <;> omega

theorem div_twin {a b : Nat} (h : a / 2 = b / 2) : a = b ∨ a = twin b := Graph.div_eq_cases h

theorem treeTy_other {ty : Nat → Nat} {e f : Nat} (h : f / 2 ≠ e / 2) : treeTy ty e f = ty f := by
  unfold treeTy
  rw [update_of_ne (fun h' => h (by rw [h', Graph.twin_div])), update_of_ne (fun h' => h (by rw [h']))]
theorem treeTy_self {ty : Nat → Nat} {e : Nat} : treeTy ty e e = 14 := by
  unfold treeTy; rw [update_of_ne (twin_ne e).symm, update_self]
theorem treeTy_twin {ty : Nat → Nat} {e : Nat} : treeTy ty e (twin e) = 6 := by
  unfold treeTy; rw [update_self]
theorem fwdTy_other {ty : Nat → Nat} {e f : Nat} (h : f / 2 ≠ e / 2) : fwdTy ty e f = ty f := by
  unfold fwdTy
  rw [update_of_ne (fun h' => h (by rw [h', Graph.twin_div])), update_of_ne (fun h' => h (by rw [h']))]
theorem fwdTy_self {ty : Nat → Nat} {e : Nat} : fwdTy ty e e = 10 := by
  unfold fwdTy; rw [update_of_ne (twin_ne e).symm, update_self]
theorem fwdTy_twin {ty : Nat → Nat} {e : Nat} : fwdTy ty e (twin e) = 2 := by
  unfold fwdTy; rw [update_self]

/-- Popping an arc to a visited vertex. -/
theorem DInv.skip (hs : Static N rot hd) {r order q stk} (h : DInv N rot hd r order (q :: stk))
    (hv : hd q.2 ∈ order) : DInv N rot hd { r with ty := fwdTy r.ty q.2 } order stk := by
  obtain ⟨q1, q2, q3, q4, q5, q6⟩ := h.stkIn q (by simp)
  have hnd := h.stkNodup
  rw [List.map_cons, List.nodup_cons] at hnd
  have hoff : ∀ x ∈ stk, x.2 / 2 ≠ q.2 / 2 := fun x hx he => hnd.1 (List.mem_map.2 ⟨x, hx, he⟩)
  have key : ∀ f, f / 2 ≠ q.2 / 2 → fwdTy r.ty q.2 f = r.ty f := fun f => fwdTy_other
  have hq2 : q.2 ∈ rot q.1 := q2
  have ht2 := hs.twins _ _ q2
  refine { range := h.range, nodup := h.nodup, idxR := h.idxR, idxInj := h.idxInj, parOut := h.parOut, parIn := ?_,
           stkIn := ?_, chain := h.chain.tail, stkNodup := hnd.2, fresh := ?_, white := ?_, anc := h.anc, typed := ?_,
           loops := ?_, child := ?_, uniq := ?_, comps := h.comps, done := ?_, interval := h.interval }
  · intro u hu
    rcases h.parIn u hu with h' | ⟨h1, h2, e, he, h3, h4⟩
    · exact Or.inl h'
    · refine Or.inr ⟨h1, h2, e, he, h3, ?_⟩
      show fwdTy r.ty q.2 e = 14
      rw [key, h4]
      intro hc
      rcases div_twin hc with rfl | rfl
      · rw [q5] at h4; omega
      · rw [q6] at h4; omega
  · intro x hx
    obtain ⟨x1, x2, x3, x4, x5, x6⟩ := h.stkIn x (by simp [hx])
    refine ⟨x1, x2, x3, x4, ?_, ?_⟩
    · show fwdTy r.ty q.2 x.2 = 0
      rw [key _ (hoff x hx), x5]
    · show fwdTy r.ty q.2 (twin x.2) = 0
      rw [key _ (by rw [Graph.twin_div]; exact hoff x hx), x6]
  · intro u hu e he hn
    rcases List.mem_cons.1 (h.fresh u hu e he hn) with h' | h'
    · exact absurd (by rw [← h'] at hv; exact hv) hn
    · exact h'
  · intro u e he hw
    have : e / 2 ≠ q.2 / 2 := by
      intro hc
      rcases div_twin hc with rfl | rfl
      · have := hs.disj he hq2; subst this
        rcases hw with hw | hw
        · exact hw q1
        · exact hw hv
      · have := hs.disj he ht2; subst this
        rcases hw with hw | hw
        · exact hw hv
        · rw [hs.owner _ _ hq2] at hw; exact hw q1
    show fwdTy r.ty q.2 e = 0
    rw [key _ this]
    exact h.white u e he hw
  · intro u hu e he hw hne
    by_cases hc : e / 2 = q.2 / 2
    · rcases div_twin hc with rfl | rfl
      · have := hs.disj he hq2; subst this
        exact Or.inr (Or.inr (Or.inl (Or.inr ⟨fwdTy_self, fwdTy_twin, q4 hv⟩)))
      · have := hs.disj he ht2; subst this
        refine Or.inr (Or.inr (Or.inr (Or.inr ⟨?_, ?_, ?_⟩)))
        · rw [twin_twin]; exact fwdTy_self
        · rw [twin_twin]; exact fwdTy_twin
        · rw [twin_twin, hs.owner _ _ hq2]; exact q4 hv
    · have e1 : fwdTy r.ty q.2 e = r.ty e := key e hc
      have e2 : fwdTy r.ty q.2 (twin e) = r.ty (twin e) := key _ (by rw [Graph.twin_div]; exact hc)
      rcases h.typed u hu e he hw hne with h' | h' | h' | h'
      · rcases List.mem_cons.1 h' with h'' | h''
        · exact absurd (by rw [← h'']) hc
        · exact Or.inl h''
      · rcases List.mem_cons.1 h' with h'' | h''
        · exact absurd (by rw [← h'']; exact (Graph.twin_div e).symm) hc
        · exact Or.inr (Or.inl h'')
      · refine Or.inr (Or.inr (Or.inl ?_))
        unfold Typed at h' ⊢
        simp only [e1, e2]; exact h'
      · refine Or.inr (Or.inr (Or.inr ?_))
        unfold Typed at h' ⊢
        rw [twin_twin] at h' ⊢
        simp only [e1, e2]; exact h'
  · intro u e he hl
    have : e / 2 ≠ q.2 / 2 := by
      intro hc
      rcases div_twin hc with rfl | rfl
      · have := hs.disj he hq2; subst this; exact q3 hl
      · have := hs.disj he ht2; subst this
        rw [hs.owner _ _ hq2] at hl; exact q3 hl.symm
    show fwdTy r.ty q.2 e = 0
    rw [key _ this]; exact h.loops u e he hl
  · intro u e he ht
    have : e / 2 ≠ q.2 / 2 := by
      intro hc
      rcases div_twin hc with rfl | rfl
      · have : fwdTy r.ty q.2 q.2 = 14 := ht; rw [fwdTy_self] at this; omega
      · have : fwdTy r.ty q.2 (twin q.2) = 14 := ht; rw [fwdTy_twin] at this; omega
    have ht' : fwdTy r.ty q.2 e = 14 := ht
    rw [key _ this] at ht'
    exact h.child u e he ht'
  · intro u u' e he e' he' ht ht' hh
    have aux : ∀ x, fwdTy r.ty q.2 x = 14 → r.ty x = 14 := by
      intro x hx
      rw [key] at hx
      · exact hx
      · intro hc
        rcases div_twin hc with rfl | rfl
        · rw [fwdTy_self] at hx; omega
        · rw [fwdTy_twin] at hx; omega
    exact h.uniq u u' e he e' he' (aux e ht) (aux e' ht') hh
  · intro u hu w hw hi hn x hx
    exact h.done u hu w hw hi hn x (by simp [hx])

/-- Visiting a vertex: a new root with the stack empty, or the end of the arc on top of the stack. -/
theorem DInv.visit (hs : Static N rot hd) {r order stk0 stk} (h : DInv N rot hd r order stk0) {u p : Nat}
    (hu : 1 ≤ u ∧ u ≤ N) (hn : u ∉ order) {ty' : Nat → Nat}
    (hc : (p = 0 ∧ ty' = r.ty ∧ stk0 = [] ∧ stk = []) ∨
      (p ≠ 0 ∧ ∃ e, stk0 = (p, e) :: stk ∧ hd e = u ∧ ty' = treeTy r.ty e)) :
    DInv N rot hd (r.visit u (order.length + 1) p ty') (u :: order) (pushed rot hd order u ++ stk) := by
  have hsub : ∀ q ∈ stk, q ∈ stk0 := by
    rcases hc with ⟨_, _, _, h4⟩ | ⟨_, e, h2, _⟩
    · simp [h4]
    · intro q hq; rw [h2]; simp [hq]
  have hp : p ≠ 0 → p ∈ order := by
    rcases hc with ⟨h1, _⟩ | ⟨_, e, h2, _⟩
    · intro hp; exact absurd h1 hp
    · intro _; exact (h.stkIn (p, e) (by simp [h2])).1
  have hstkAnc : ∀ q ∈ stk, p ≠ 0 ∧ AncEq r.par q.1 p := by
    rcases hc with ⟨_, _, _, h4⟩ | ⟨h1, e, h2, _⟩
    · simp [h4]
    · intro q hq
      have := h.chain
      rw [h2, List.pairwise_cons] at this
      exact ⟨h1, this.1 q hq⟩
  have hin : ∀ w ∈ order, ∀ f ∈ rot w, hd f = u → p ≠ 0 ∧ AncEq r.par w p := by
    intro w hw f hf he
    have hm := h.fresh w hw f hf (by rw [he]; exact hn)
    rcases hc with ⟨_, _, h3, _⟩ | ⟨h1, e, h2, _⟩
    · simp [h3] at hm
    · rw [h2] at hm
      rcases List.mem_cons.1 hm with h' | h'
      · injection h' with h5 h6; rw [h5]; exact ⟨h1, .refl _⟩
      · exact hstkAnc _ h'
  -- types
  have hT : ∀ x f, f ∈ rot x → x ≠ u → hd f ≠ u → ty' f = r.ty f ∧ ty' (twin f) = r.ty (twin f) := by
    intro x f hf hx hx'
    rcases hc with ⟨_, h2, _⟩ | ⟨h1, e, h2, h3, h4⟩
    · rw [h2]; exact ⟨rfl, rfl⟩
    · obtain ⟨e1, e2, _⟩ := h.stkIn (p, e) (by simp [h2])
      have hne : f / 2 ≠ e / 2 := by
        intro hd'
        rcases div_twin hd' with rfl | rfl
        · exact hx' h3
        · have := hs.disj hf (hs.twins _ _ e2); exact hx (by rw [this, h3])
      rw [h4]
      exact ⟨treeTy_other hne, treeTy_other (by rw [Graph.twin_div]; exact hne)⟩
  have hT14 : ∀ x f, f ∈ rot x → ty' f = 14 → (r.ty f = 14 ∧ x ∈ order ∧ hd f ∈ order) ∨
      (p ≠ 0 ∧ x = p ∧ hd f = u ∧ stk0 = (p, f) :: stk) := by
    intro x f hf ht
    have hmem : r.ty f = 14 → x ∈ order ∧ hd f ∈ order := by
      intro h'
      have := h.white x f hf
      by_cases a : x ∈ order
      · by_cases b : hd f ∈ order
        · exact ⟨a, b⟩
        · have := this (Or.inr b); omega
      · have := this (Or.inl a); omega
    rcases hc with ⟨_, h2, _⟩ | ⟨h1, e, h2, h3, h4⟩
    · rw [h2] at ht; exact Or.inl ⟨ht, hmem ht⟩
    · obtain ⟨e1, e2, _⟩ := h.stkIn (p, e) (by simp [h2])
      by_cases hd' : f / 2 = e / 2
      · rcases div_twin hd' with rfl | rfl
        · exact Or.inr ⟨h1, hs.disj hf e2, h3, h2⟩
        · rw [h4, treeTy_twin] at ht; omega
      · rw [h4, treeTy_other hd'] at ht; exact Or.inl ⟨ht, hmem ht⟩
  -- ancestors
  have hcl := h.closed
  have hold : ∀ a b, b ∈ order → (AncEq (update r.par u p) a b ↔ AncEq r.par a b) :=
    fun a b hb => ancEq_update hcl hn p hb
  have hparNe : ∀ b ∈ order, update r.par u p b = r.par b :=
    fun b hb => update_of_ne (fun e : b = u => hn (e ▸ hb)) _ _
  have hidxNe : ∀ b ∈ order, update r.idx u (order.length + 1) b = r.idx b :=
    fun b hb => update_of_ne (fun e : b = u => hn (e ▸ hb)) _ _
  have hparU : update r.par u p u = p := update_self ..
  have hidxU : update r.idx u (order.length + 1) u = order.length + 1 := update_self ..
  have hancU : ∀ a, p ≠ 0 → AncEq r.par a p → Anc (update r.par u p) a u := by
    intro a h0 ha
    refine ⟨by rw [hparU]; exact h0, ?_⟩
    rw [hparU]; exact (hold a p (hp h0)).2 ha
  have hancU' : ∀ a, a ≠ u → AncEq (update r.par u p) a u → p ≠ 0 ∧ AncEq r.par a p := by
    intro a hne ha
    rcases ha.cases with h' | ⟨h1, h2⟩
    · exact absurd h' hne
    · rw [hparU] at h1 h2
      exact ⟨h1, (hold a p (hp h1)).1 h2⟩
  have hnu : ∀ b ∈ order, ¬ AncEq (update r.par u p) u b := by
    intro b hb ha
    exact hn (ancEq_mem hcl ((hold u b hb).1 ha) hb)
  have hanc : ∀ a b, b ∈ order → (Anc (update r.par u p) a b ↔ Anc r.par a b) := by
    intro a b hb
    unfold Anc
    rw [hparNe b hb]
    constructor
    · rintro ⟨h1, h2⟩
      rcases hcl b hb with h' | h'
      · exact absurd h' h1
      · exact ⟨h1, (hold a _ h').1 h2⟩
    · rintro ⟨h1, h2⟩
      rcases hcl b hb with h' | h'
      · exact absurd h' h1
      · exact ⟨h1, (hold a _ h').2 h2⟩
  refine { range := ?_, nodup := List.nodup_cons.2 ⟨hn, h.nodup⟩, idxR := ?_, idxInj := ?_, parOut := ?_, parIn := ?_,
           stkIn := ?_, chain := ?_, stkNodup := ?_, fresh := ?_, white := ?_, anc := ?_, typed := ?_,
           loops := ?_, child := ?_, uniq := ?_, comps := ?_, done := ?_, interval := ?_ } <;> (try simp only [Rec.visit])
  · intro x hx
    rcases List.mem_cons.1 hx with rfl | hx
    · exact hu
    · exact h.range x hx
  · intro x hx
    rcases List.mem_cons.1 hx with rfl | hx
    · rw [hidxU, List.length_cons]; omega
    · rw [hidxNe x hx, List.length_cons]; have := h.idxR x hx; omega
  · intro x hx0 y hy0
    rcases List.mem_cons.1 hx0 with rfl | hx <;> rcases List.mem_cons.1 hy0 with rfl | hy
    · intro _; rfl
    · rw [hidxU, hidxNe y hy]; have := h.idxR y hy; omega
    · rw [hidxU, hidxNe x hx]; have := h.idxR x hx; omega
    · rw [hidxNe x hx, hidxNe y hy]; exact h.idxInj x hx y hy
  · intro x h1 h2 h3
    rw [List.mem_cons, not_or] at h3
    rw [update_of_ne h3.1]; exact h.parOut x h1 h2 h3.2
  · intro x hx
    rcases List.mem_cons.1 hx with rfl | hx
    · rw [hparU]
      by_cases h0 : p = 0
      · exact Or.inl h0
      · refine Or.inr ⟨List.mem_cons_of_mem _ (hp h0), ?_, ?_⟩
        · rw [hidxU, hidxNe p (hp h0)]; have := h.idxR p (hp h0); omega
        · rcases hc with ⟨h1, _⟩ | ⟨h1, e, h2, h3, h4⟩
          · exact absurd h1 h0
          · exact ⟨e, (h.stkIn (p, e) (by simp [h2])).2.1, h3, by rw [h4]; exact treeTy_self⟩
    · rw [hparNe x hx]
      rcases h.parIn x hx with h' | ⟨h1, h2, e, h3, h4, h5⟩
      · exact Or.inl h'
      · refine Or.inr ⟨List.mem_cons_of_mem _ h1, ?_, e, h3, h4, ?_⟩
        · rw [hidxNe _ h1, hidxNe x hx]; exact h2
        · rw [(hT _ e h3 (fun e' => hn (e' ▸ h1)) (fun e' => hn (by rw [← e', h4]; exact hx))).1]; exact h5
  · intro q hq
    rcases List.mem_append.1 hq with hq | hq
    · obtain ⟨h1, h2, h3⟩ := mem_pushed.1 hq
      rw [List.mem_cons, not_or] at h3
      refine ⟨by simp [h1], by rw [h1]; exact h2, by rw [h1]; exact h3.1, fun h' => ?_, ?_⟩
      · rcases List.mem_cons.1 h' with h' | h'
        · exact absurd h' h3.1
        · exact absurd h' h3.2
      · have hw := h.white u q.2 h2 (Or.inl hn)
        have hw' := h.white _ _ (hs.twins _ _ h2) (Or.inl h3.2)
        rcases hc with ⟨_, h5, _⟩ | ⟨h5, e, h6, h7, h8⟩
        · rw [h5]; exact ⟨hw, hw'⟩
        · obtain ⟨e1, e2, _⟩ := h.stkIn (p, e) (by simp [h6])
          have hne : q.2 / 2 ≠ e / 2 := by
            intro hd'
            rcases div_twin hd' with h9 | h9
            · rw [h9] at h2; exact hn (hs.disj h2 e2 ▸ e1)
            · rw [h9, hs.owner _ _ e2] at h3; exact h3.2 e1
          rw [h8, treeTy_other hne, treeTy_other (by rw [Graph.twin_div]; exact hne)]
          exact ⟨hw, hw'⟩
    · obtain ⟨h1, h2, h3, h4, h5, h6⟩ := h.stkIn q (hsub q hq)
      refine ⟨List.mem_cons_of_mem _ h1, h2, h3, fun h' => ?_, ?_⟩
      · rcases List.mem_cons.1 h' with h' | h'
        · rw [h']
          exact hancU _ (hstkAnc q hq).1 (hstkAnc q hq).2
        · exact (hanc _ _ h').2 (h4 h')
      · rcases hc with ⟨_, h7, _⟩ | ⟨_, e, h8, _, h9⟩
        · rw [h7]; exact ⟨h5, h6⟩
        · have hnd := h.stkNodup
          rw [h8, List.map_cons, List.nodup_cons] at hnd
          have hne : q.2 / 2 ≠ e / 2 := fun he => hnd.1 (List.mem_map.2 ⟨q, hq, he⟩)
          rw [h9, treeTy_other hne, treeTy_other (by rw [Graph.twin_div]; exact hne)]
          exact ⟨h5, h6⟩
  · rw [List.pairwise_append]
    refine ⟨?_, ?_, ?_⟩
    · apply List.Pairwise.imp_of_mem (R := fun _ _ => True)
      · intro a b ha hb _
        rw [(mem_pushed.1 ha).1, (mem_pushed.1 hb).1]; exact .refl _
      · exact List.pairwise_of_forall (fun _ _ => trivial)
    · have : stk.Pairwise fun a b => AncEq r.par b.1 a.1 := by
        rcases hc with ⟨_, _, _, h4⟩ | ⟨_, e, h2, _⟩
        · simp [h4]
        · have := h.chain; rw [h2] at this; exact this.tail
      refine this.imp_of_mem ?_
      intro a b ha hb hab
      exact (hold _ _ (h.stkIn a (hsub a ha)).1).2 hab
    · intro a ha b hb
      rw [(mem_pushed.1 ha).1]
      exact (hancU _ (hstkAnc b hb).1 (hstkAnc b hb).2).eq
  · rw [List.map_append, List.nodup_append]
    refine ⟨?_, ?_, ?_⟩
    · unfold pushed
      rw [List.map_reverse, List.map_map]
      rw [List.nodup_reverse]
      apply List.Nodup.map_on
      · intro a ha b hb hab
        rw [List.mem_filter] at ha hb
        rcases div_twin (show a / 2 = b / 2 from hab) with h' | h'
        · exact h'
        · exfalso
          have := hs.twins _ _ hb.1
          rw [← h'] at this
          have h2 := hs.disj ha.1 this
          have h3 := hb.2
          simp [← h2] at h3
      · exact (hs.nodup u).filter _
    · rcases hc with ⟨_, _, _, h4⟩ | ⟨_, e, h2, _⟩
      · simp [h4]
      · have := h.stkNodup; rw [h2, List.map_cons, List.nodup_cons] at this; exact this.2
    · intro a ha b hb hab
      obtain ⟨x, hx, rfl⟩ := List.mem_map.1 ha
      obtain ⟨y, hy, rfl⟩ := List.mem_map.1 hb
      obtain ⟨h1, h2, h3⟩ := mem_pushed.1 hx
      obtain ⟨h4, h5, _⟩ := h.stkIn y (hsub y hy)
      rcases div_twin hab with h' | h'
      · rw [h'] at h2; exact hn (hs.disj h2 h5 ▸ h4)
      · rw [h', hs.owner _ _ h5] at h3; exact h3 (List.mem_cons_of_mem _ h4)
  · intro w hw f hf hh
    rw [List.mem_append]
    rcases List.mem_cons.1 hw with rfl | hw
    · exact Or.inl (mem_pushed.2 ⟨rfl, hf, hh⟩)
    · have hh' := hh
      rw [List.mem_cons, not_or] at hh'
      have := h.fresh w hw f hf hh'.2
      rcases hc with ⟨_, _, h3, _⟩ | ⟨_, e, h2, h3, _⟩
      · simp [h3] at this
      · rw [h2] at this
        rcases List.mem_cons.1 this with h' | h'
        · injection h' with h5 h6; exact absurd (h6 ▸ h3) hh'.1
        · exact Or.inr h'
  · intro w f hf hw
    have hne : w ≠ u → hd f ≠ u → ty' f = 0 := by
      intro a b
      rw [(hT w f hf a b).1]
      apply h.white w f hf
      rcases hw with hw | hw
      · left; exact fun h' => hw (List.mem_cons_of_mem _ h')
      · right; exact fun h' => hw (List.mem_cons_of_mem _ h')
    have hty : r.ty f = 0 := by
      apply h.white w f hf
      rcases hw with hw | hw
      · left; exact fun h' => hw (List.mem_cons_of_mem _ h')
      · right; exact fun h' => hw (List.mem_cons_of_mem _ h')
    rcases hc with ⟨_, h2, _⟩ | ⟨h1, e, h2, h3, h4⟩
    · rw [h2]; exact hty
    · obtain ⟨e1, e2, _⟩ := h.stkIn (p, e) (by simp [h2])
      rw [h4, treeTy_other, hty]
      intro hd'
      rcases div_twin hd' with rfl | rfl
      · have := hs.disj hf e2; subst this
        rcases hw with hw | hw
        · exact hw (List.mem_cons_of_mem _ e1)
        · exact hw (by simp [h3])
      · have := hs.disj hf (hs.twins _ _ e2)
        rcases hw with hw | hw
        · exact hw (by simp [this, h3])
        · exact hw (by rw [hs.owner _ _ e2]; exact List.mem_cons_of_mem _ e1)
  · intro w hw f hf hh
    rcases List.mem_cons.1 hw with rfl | hw
    · rcases List.mem_cons.1 hh with h' | h'
      · rw [h']; exact Or.inl (.refl _)
      · right
        have := hin _ h' (twin f) (hs.twins _ _ hf) (hs.owner _ _ hf)
        exact (hancU _ this.1 this.2).eq
    · rcases List.mem_cons.1 hh with h' | h'
      · left
        have := hin _ hw f hf h'
        rw [h']; exact (hancU _ this.1 this.2).eq
      · rcases h.anc w hw f hf h' with h'' | h''
        · exact Or.inl ((hold _ _ h').2 h'')
        · exact Or.inr ((hold _ _ hw).2 h'')
  · have aux : ∀ w ∈ order, ∀ f ∈ rot w, hd f = u → (w, f) ∈ pushed rot hd order u ++ stk ∨
        Typed hd (r.visit u (order.length + 1) p ty') w f := by
      intro w hw f hf hh
      have hm := h.fresh w hw f hf (by rw [hh]; exact hn)
      rcases hc with ⟨_, _, h3, _⟩ | ⟨h1, e, h2, h3, h4⟩
      · simp [h3] at hm
      · rw [h2] at hm
        rcases List.mem_cons.1 hm with h' | h'
        · injection h' with h5 h6
          subst h5 h6
          right; left
          refine ⟨?_, ?_, ?_⟩
          · show ty' f = 14; rw [h4]; exact treeTy_self
          · show ty' (twin f) = 6; rw [h4]; exact treeTy_twin
          · show update r.par u w (hd f) = w
            rw [h3, hparU]
        · exact Or.inl (List.mem_append.2 (Or.inr h'))
    have aux2 : ∀ w ∈ order, ∀ f ∈ rot w, hd f ∈ order → Typed hd r w f →
        Typed hd (r.visit u (order.length + 1) p ty') w f := by
      intro w hw f hf hh ht
      have := hT w f hf (fun e' => hn (e' ▸ hw)) (fun e' => hn (e' ▸ hh))
      unfold Typed Rec.visit at *
      simp only at *
      rw [this.1, this.2, hparNe _ hh, hanc _ _ hh]
      exact ht
    intro w hw f hf hh hne
    rcases List.mem_cons.1 hw with rfl | hw
    · rcases List.mem_cons.1 hh with h' | h'
      · exact absurd h' hne
      · rcases aux _ h' (twin f) (hs.twins _ _ hf) (hs.owner _ _ hf) with h'' | h''
        · exact Or.inr (Or.inl h'')
        · exact Or.inr (Or.inr (Or.inr h''))
    · rcases List.mem_cons.1 hh with h' | h'
      · rcases aux w hw f hf h' with h'' | h''
        · exact Or.inl h''
        · exact Or.inr (Or.inr (Or.inl h''))
      · have hcase : ∀ x, x ∈ stk0 → hd x.2 ≠ u → x ∈ pushed rot hd order u ++ stk := by
          intro x hx hxu
          rcases hc with ⟨_, _, h3, _⟩ | ⟨h1, e, h2, h3, h4⟩
          · simp [h3] at hx
          · rw [h2] at hx
            rcases List.mem_cons.1 hx with h6 | h6
            · rw [h6] at hxu; exact absurd h3 hxu
            · exact List.mem_append.2 (Or.inr h6)
        rcases h.typed w hw f hf h' hne with h'' | h'' | h'' | h''
        · exact Or.inl (hcase _ h'' (fun e' => hn (e' ▸ h')))
        · exact Or.inr (Or.inl (hcase _ h'' (by
            show hd (twin f) ≠ u
            rw [hs.owner _ _ hf]; exact fun e' => hn (e' ▸ hw))))
        · exact Or.inr (Or.inr (Or.inl (aux2 w hw f hf h' h'')))
        · exact Or.inr (Or.inr (Or.inr (aux2 _ h' _ (hs.twins _ _ hf) (by rw [hs.owner _ _ hf]; exact hw) h'')))
  · intro w f hf hl
    have h0 := h.loops w f hf hl
    rcases hc with ⟨_, h2, _⟩ | ⟨h1, e, h2, h3, h4⟩
    · rw [h2]; exact h0
    · obtain ⟨e1, e2, e3, _⟩ := h.stkIn (p, e) (by simp [h2])
      rw [h4, treeTy_other, h0]
      intro hd'
      rcases div_twin hd' with rfl | rfl
      · have := hs.disj hf e2; exact e3 (by rw [hl, this])
      · have := hs.disj hf (hs.twins _ _ e2)
        rw [hs.owner _ _ e2] at hl; exact e3 (by rw [← this]; exact hl.symm)
  · intro w f hf ht
    rcases hT14 w f hf ht with ⟨h1, h2, h3⟩ | ⟨h1, h2, h3, _⟩
    · rw [hparNe _ h3]; exact h.child w f hf h1
    · rw [h3, hparU, h2]
  · intro w w' f hf f' hf' ht ht' he
    rcases hT14 w f hf ht with ⟨h1, h2, h3⟩ | ⟨h1, h2, h3, h4⟩ <;>
      rcases hT14 w' f' hf' ht' with ⟨k1, k2, k3⟩ | ⟨k1, k2, k3, k4⟩
    · exact h.uniq w w' f hf f' hf' h1 k1 he
    · exact absurd (by rw [← k3, ← he]; exact h3) hn
    · exact absurd (by rw [← h3, he]; exact k3) hn
    · rw [h4] at k4; injection k4 with k5 _; injection k5
  · have hlink : stk0 = [] → ∀ a b, Linked rot hd a b → a ∈ order → b ∈ order := by
      intro h0 a b hl ha
      induction hl with
      | refl => exact ha
      | @step b f _ hf ih =>
        by_contra hcon
        have := h.fresh b ih f hf hcon
        simp [h0] at this
    have hlink' : stk0 = [] → ∀ a b, Linked rot hd a b → b ∈ order → a ∈ order := by
      intro h0 a b hl
      induction hl with
      | refl => exact id
      | @step b f _ hf ih =>
        intro hb
        apply ih
        by_contra hcon
        have := h.fresh (hd f) hb (twin f) (hs.twins _ _ hf) (by rw [hs.owner _ _ hf]; exact hcon)
        simp [h0] at this
    intro a ha0 b hb0 pa pb hne
    rcases List.mem_cons.1 ha0 with rfl | ha <;> rcases List.mem_cons.1 hb0 with rfl | hb
    · exact absurd rfl hne
    · rw [hparU] at pa
      rcases hc with ⟨_, _, h3, _⟩ | ⟨h1, _⟩
      · exact fun hl => hn (hlink' h3 _ _ hl hb)
      · exact absurd pa h1
    · rw [hparU] at pb
      rcases hc with ⟨_, _, h3, _⟩ | ⟨h1, _⟩
      · exact fun hl => hn (hlink h3 _ _ hl ha)
      · exact absurd pb h1
    · rw [hparNe a ha] at pa; rw [hparNe b hb] at pb
      exact h.comps a ha b hb pa pb hne
  · intro a ha w hw hi hna q hq
    rcases List.mem_cons.1 ha with rfl | ha
    · rcases List.mem_cons.1 hw with rfl | hw
      · omega
      · rw [hidxU, hidxNe w hw] at hi; have := h.idxR w hw; omega
    · have hau : a ≠ u := fun e => hn (e ▸ ha)
      have hdone : ∀ w ∈ order, r.idx a < r.idx w → ¬ AncEq r.par a w → p ≠ 0 → ¬ AncEq r.par a p := by
        intro w hw hi hna h0
        rcases hc with ⟨h1, _⟩ | ⟨h1, e, h2, h3, h4⟩
        · exact absurd h1 h0
        · exact h.done a ha w hw hi hna (p, e) (by simp [h2])
      rcases List.mem_cons.1 hw with rfl | hw
      · have hnp : p ≠ 0 → ¬ AncEq r.par a p := fun h0 h' => hna (hancU _ h0 h').eq
        rcases List.mem_append.1 hq with hq | hq
        · rw [(mem_pushed.1 hq).1]; exact hna
        · rw [hold _ _ (h.stkIn q (hsub q hq)).1]
          intro h'
          exact hnp (hstkAnc q hq).1 (h'.trans (hstkAnc q hq).2)
      · rw [hidxNe a ha, hidxNe w hw] at hi
        rw [hold _ _ hw] at hna
        rcases List.mem_append.1 hq with hq | hq
        · rw [(mem_pushed.1 hq).1]
          intro h'
          have := hancU' a hau h'
          exact hdone w hw hi hna this.1 this.2
        · rw [hold _ _ (h.stkIn q (hsub q hq)).1]
          exact h.done a ha w hw hi hna q (hsub q hq)
  · intro a ha0 w hw0 x hx0 h1 h2 hna
    rcases List.mem_cons.1 ha0 with rfl | ha
    · rcases List.mem_cons.1 hw0 with rfl | hw
      · omega
      · rw [hidxU, hidxNe w hw] at h1; have := h.idxR w hw; omega
    · have hau : a ≠ u := fun e => hn (e ▸ ha)
      rcases List.mem_cons.1 hw0 with rfl | hw
      · rcases List.mem_cons.1 hx0 with rfl | hx
        · omega
        · rw [hidxU, hidxNe x hx] at h2; have := h.idxR x hx; omega
      · rw [hidxNe a ha, hidxNe w hw] at h1
        rw [hold _ _ hw] at hna
        rcases List.mem_cons.1 hx0 with rfl | hx
        · intro h'
          have := hancU' a hau h'
          rcases hc with ⟨h3, _⟩ | ⟨h3, e, h4, _, _⟩
          · exact this.1 h3
          · exact h.done a ha w hw h1 hna (p, e) (by simp [h4]) this.2
        · rw [hidxNe w hw, hidxNe x hx] at h2
          rw [hold _ _ hx]
          exact h.interval a ha w hw x hx h1 h2 hna

end Verif.DFS
