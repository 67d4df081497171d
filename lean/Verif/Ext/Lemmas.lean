import Mathlib.Data.List.Nodup
import Verif.Spec.Ext

/-
Lemmas about the extension system: tables of a list of extensions above a given bottom.
-/
namespace Verif.Props
open Verif Verif.Ext Function

/-- The first overload of `k` in a list, or the bottom. -/
def topT : List AExt → (Nat → Fn) → Nat → Fn
  | [], T, k => T k
  | y :: L, T, k => if k ∈ y.S then .over y.m k else topT L T k

/-- The table of `y` if `F` is below it. -/
def tab (y : AExt) (F : Nat → Fn) : Table := fun k => if k ∈ y.S then some (F k) else none

/-- The tables of a list of extensions are right if `T` is below them. -/
def Tabs (h : Nat → Option Table) (T : Nat → Fn) : List AExt → Prop
  | [] => True
  | y :: L => h y.c = some (tab y (topT L T)) ∧ Tabs h T L

theorem topT_append (A B : List AExt) (T : Nat → Fn) : topT (A ++ B) T = topT A (topT B T) := by
  induction A with
  | nil => funext k; rfl
  | cons y L ih => funext k; simp only [List.cons_append, topT, ih]

theorem Tabs.append {h : Nat → Option Table} {T : Nat → Fn} {A B : List AExt} :
    Tabs h T (A ++ B) ↔ Tabs h (topT B T) A ∧ Tabs h T B := by
  induction A with
  | nil => simp [Tabs]
  | cons y L ih => simp only [List.cons_append, Tabs, ih, topT_append, and_assoc]

theorem Tabs.congr {h h' : Nat → Option Table} {T : Nat → Fn} {A : List AExt} (hA : Tabs h T A)
    (he : ∀ y ∈ A, h' y.c = h y.c) : Tabs h' T A := by
  induction A with
  | nil => trivial
  | cons y L ih =>
    exact ⟨(he y (by simp)).trans hA.1, ih hA.2 fun z hz => he z (by simp [hz])⟩

theorem Tabs.get {h : Nat → Option Table} {T : Nat → Fn} {A : List AExt} (hA : Tabs h T A) {y : AExt} (hy : y ∈ A) :
    ∃ F, h y.c = some (tab y F) := by
  induction A with
  | nil => cases hy
  | cons z L ih =>
    rcases List.mem_cons.1 hy with rfl | hy
    · exact ⟨_, hA.1⟩
    · exact ih hA.2 hy

/-- The last overload of `k` in a list. -/
def near : List AExt → Nat → Option AExt
  | [], _ => none
  | y :: L, k => match near L k with
    | some z => some z
    | none => if k ∈ y.S then some y else none

theorem near_mem {A : List AExt} {k : Nat} {z : AExt} (h : near A k = some z) : z ∈ A ∧ k ∈ z.S := by
  induction A with
  | nil => cases h
  | cons y L ih =>
    simp only [near] at h
    split at h
    · next w hw => cases h; exact ⟨by simp [(ih hw).1], (ih hw).2⟩
    · split at h
      · cases h; exact ⟨by simp, by assumption⟩
      · cases h

theorem near_none {A : List AExt} {k : Nat} (h : near A k = none) : ∀ y ∈ A, k ∉ y.S := by
  induction A with
  | nil => simp
  | cons y L ih =>
    simp only [near] at h
    split at h
    · cases h
    · next hw =>
      split at h
      · cases h
      · intro z hz
        rcases List.mem_cons.1 hz with rfl | hz
        · assumption
        · exact ih hw z hz

theorem topT_not {A : List AExt} {k : Nat} (h : ∀ y ∈ A, k ∉ y.S) (T : Nat → Fn) : topT A T k = T k := by
  induction A with
  | nil => rfl
  | cons y L ih =>
    rw [topT, if_neg (h y (by simp)), ih fun z hz => h z (by simp [hz])]

theorem topT_some {A : List AExt} {k : Nat} (h : near A k ≠ none) (T T' : Nat → Fn) : topT A T k = topT A T' k := by
  induction A with
  | nil => exact absurd rfl h
  | cons y L ih =>
    simp only [topT]
    split
    · rfl
    · next hk =>
      refine ih ?_
      intro hn
      exact h (by simp [near, hn, hk])

theorem topT_ne {A : List AExt} {k j : Nat} (h : j ≠ k) (T : Nat → Fn) (f : Fn) : topT A (update T k f) j = topT A T j := by
  induction A with
  | nil => simp [topT, h]
  | cons y L ih => simp only [topT, ih]

theorem topT_update_some {A : List AExt} {k : Nat} (h : near A k ≠ none) (T : Nat → Fn) (f : Fn) :
    topT A (update T k f) = topT A T := by
  funext j
  by_cases hj : j = k
  · subst hj; exact topT_some h _ _
  · exact topT_ne hj T f

theorem topT_update_none {A : List AExt} {k : Nat} (h : near A k = none) (T : Nat → Fn) (f : Fn) :
    topT A (update T k f) = update (topT A T) k f := by
  funext j
  by_cases hj : j = k
  · subst hj; rw [topT_not (near_none h)]; simp
  · rw [topT_ne hj, update_of_ne hj]

theorem Tabs.update_none {h : Nat → Option Table} {T : Nat → Fn} {A : List AExt} {k : Nat} (hA : Tabs h T A)
    (hn : near A k = none) (f : Fn) : Tabs h (update T k f) A := by
  induction A with
  | nil => trivial
  | cons y L ih =>
    have hy := near_none hn
    have hL : near L k = none := by
      simp only [near] at hn
      split at hn
      · cases hn
      · assumption
    refine ⟨?_, ih hA.2 hL⟩
    rw [hA.1]
    congr 1
    funext j
    simp only [tab]
    by_cases hj : j = k
    · subst hj; rw [if_neg (hy y (by simp)), if_neg (hy y (by simp))]
    · rw [topT_ne hj]

theorem Tabs.update_some {h : Nat → Option Table} {T : Nat → Fn} {A : List AExt} {k : Nat} (hA : Tabs h T A)
    {z : AExt} (hn : near A k = some z) (hd : (A.map AExt.c).Nodup) {t : Table} (ht : h z.c = some t) (f : Fn) :
    Tabs (update h z.c (some (update t k (some f)))) (update T k f) A := by
  induction A with
  | nil => cases hn
  | cons y L ih =>
    rw [List.map_cons, List.nodup_cons] at hd
    simp only [near] at hn
    split at hn
    · next w hw =>
      cases hn
      have hz := (near_mem hw).1
      have hne : y.c ≠ z.c := fun e => hd.1 (by rw [e]; exact List.mem_map_of_mem hz)
      refine ⟨?_, ih hA.2 hw hd.2⟩
      rw [update_of_ne hne, hA.1, topT_update_some (by rw [hw]; simp)]
    · next hw =>
      split at hn
      · next hk =>
        cases hn
        refine ⟨?_, ?_⟩
        · rw [update_self]
          have : t = tab z (topT L T) := by rw [hA.1] at ht; exact (Option.some.inj ht).symm
          subst this
          congr 1
          funext j
          by_cases hj : j = k
          · subst hj; simp [tab, hk, topT_not (near_none hw)]
          · simp [tab, hj, topT_ne hj]
        · refine Tabs.congr (hA.2.update_none hw f) fun z hz => ?_
          exact update_of_ne (fun e => hd.1 (by rw [← e]; exact List.mem_map_of_mem hz)) _ _
      · cases hn

theorem foldl_exchange (l : List Nat) (hl : l.Nodup) (G T : Table) (k : Nat) :
    (l.foldl Sys.exchange (G, T)).1 k = (if k ∈ l ∧ (T k).isSome then T k else G k) ∧
    (l.foldl Sys.exchange (G, T)).2 k = (if k ∈ l ∧ (T k).isSome then G k else T k) := by
  induction l generalizing G T with
  | nil => simp
  | cons j l ih =>
    rw [List.nodup_cons] at hl
    rw [List.foldl_cons]
    rcases ht : T j with _ | f
    · have he : Sys.exchange (G, T) j = (G, T) := by simp [Sys.exchange, ht]
      rw [he]
      have := ih hl.2 G T
      rw [this.1, this.2]
      by_cases hk : k = j
      · subst hk; simp [ht]
      · simp [hk]
    · have he : Sys.exchange (G, T) j = (update G j (some f), update T j (G j)) := by simp [Sys.exchange, ht]
      rw [he]
      have := ih hl.2 (update G j (some f)) (update T j (G j))
      rw [this.1, this.2]
      by_cases hk : k = j
      · subst hk; simp [ht, hl.1]
      · simp [hk, update_of_ne]

theorem overload_eq (G : Nat → Fn) (m : Nat) (S : List Nat) (hS : ∀ k ∈ S, k < numFunctions) :
    Sys.overload (fun k => some (G k)) (fun k => if k ∈ S then some (.over m k) else none) =
      (fun k => some (if k ∈ S then .over m k else G k), fun k => if k ∈ S then some (G k) else none) := by
  have h := foldl_exchange (List.range numFunctions) List.nodup_range (fun k => some (G k))
    (fun k => if k ∈ S then some (.over m k) else none)
  refine Prod.ext (funext fun k => ?_) (funext fun k => ?_)
  · refine (h k).1.trans ?_
    by_cases hk : k ∈ S
    · simp [hk, hS k hk]
    · simp [hk]
  · refine (h k).2.trans ?_
    by_cases hk : k ∈ S
    · simp [hk, hS k hk]
    · simp [hk]

/-- The record of an extension. -/
def recOf (ids tb : Nat → Nat) (x : AExt) : Rec := ⟨ids x.m, x.c, tb x.c⟩

/-- The state of the system is as intended. -/
structure WInv (s : Sys) (a : AState) (tb : Nat → Nat → Nat) : Prop where
  recs : ∀ g, (s.graphs g).exts = (a.exts g).map (recOf s.ids (tb g))
  own : ∀ g, ¬ a.copied g → ∀ x ∈ a.exts g, tb g x.c = x.c
  funs : ∀ g, (s.graphs g).funs = fun k => some (topT (a.exts g) Fn.core k)
  tabs : ∀ g, Tabs s.heap Fn.core (a.exts g)
  mods : ∀ g, ((a.exts g).map AExt.m).Nodup
  ctxs : ∀ g, ((a.exts g).map AExt.c).Nodup
  apart : ∀ g g', g ≠ g' → ∀ x ∈ a.exts g, ∀ y ∈ a.exts g', x.c ≠ y.c
  bound : ∀ g, ∀ x ∈ a.exts g, ∀ k ∈ x.S, k < numFunctions
  known : ∀ m, a.known m ↔ s.ids m ≠ 0
  has : ∀ g, ∀ x ∈ a.exts g, a.known x.m
  inj : ∀ m n, s.ids m = s.ids n → s.ids m ≠ 0 → m = n
  gen : ∀ m, s.ids m ≤ s.gen

theorem WInv.init : WInv {} {} (fun _ _ => 0) := by
  constructor <;> simp [Tabs, topT]

theorem findRec_map {s : Sys} {tb : Nat → Nat} {L : List AExt} (m : Nat) (hm : s.ids m ≠ 0)
    (inj : ∀ m n, s.ids m = s.ids n → s.ids m ≠ 0 → m = n) :
    Sys.findRec (s.ids m) (L.map (recOf s.ids tb)) = (L.find? (fun x => decide (x.m = m))).map (recOf s.ids tb) := by
  induction L with
  | nil => rfl
  | cons y L ih =>
    simp only [List.map_cons, Sys.findRec, List.find?_cons]
    by_cases h : y.m = m
    · subst h; simp [recOf]
    · have : ¬ (s.ids y.m = s.ids m) := fun e => h (inj m y.m e.symm hm).symm
      simp only [recOf, this, if_false, h, decide_false]
      exact ih

theorem WInv.find {s : Sys} {a : AState} {tb : Nat → Nat → Nat} (h : WInv s a tb) (g m : Nat) :
    s.find g (s.ids m) = contextOf (a.exts g) m := by
  unfold Sys.find contextOf
  by_cases hm : s.ids m = 0
  · rw [if_pos hm]
    have : (a.exts g).find? (fun x => decide (x.m = m)) = none := by
      rw [List.find?_eq_none]
      intro x hx he
      have := (h.known x.m).1 (h.has g x hx)
      rw [of_decide_eq_true he] at this
      exact this hm
    rw [this]; rfl
  · rw [if_neg hm, h.recs g, findRec_map m hm h.inj, Option.map_map]
    rfl

theorem contextOf_mem {L : List AExt} (hd : (L.map AExt.m).Nodup) {x : AExt} (hx : x ∈ L) :
    L.find? (fun y => decide (y.m = x.m)) = some x := by
  induction L with
  | nil => cases hx
  | cons y L ih =>
    rw [List.map_cons, List.nodup_cons] at hd
    rcases List.mem_cons.1 hx with rfl | hx
    · simp
    · have : y.m ≠ x.m := fun e => hd.1 (by rw [e]; exact List.mem_map_of_mem hx)
      rw [List.find?_cons]
      simp only [this, decide_false]
      exact ih hd.2 hx

theorem WInv.follow {s : Sys} {a : AState} {tb : Nat → Nat → Nat} (h : WInv s a tb) (g k : Nat) :
    ∀ (M A : List AExt), a.exts g = A ++ M → ∀ fuel, M.length < fuel →
      s.follow g fuel (topT M Fn.core k) = some (chainOf M k) := by
  intro M
  induction M with
  | nil => intro A _ fuel _; cases fuel <;> rfl
  | cons y M ih =>
    intro A hA fuel hf
    have hy : y ∈ a.exts g := by rw [hA]; simp
    have hA' : a.exts g = (A ++ [y]) ++ M := by simp [hA]
    simp only [topT]
    by_cases hk : k ∈ y.S
    · rw [if_pos hk]
      obtain ⟨fuel, rfl⟩ : ∃ n, fuel = n + 1 := ⟨fuel - 1, by simp at hf; omega⟩
      have ht := h.tabs g
      rw [hA, Tabs.append] at ht
      have ht := ht.2.1
      have hr := ih (A ++ [y]) hA' fuel (by simp at hf; omega)
      simp only [Sys.follow, h.find, contextOf, contextOf_mem (h.mods g) hy, Option.map_some, Option.bind_eq_bind,
        Option.bind_some, ht, tab, hk, if_true, hr]
      simp [chainOf, hk]
    · rw [if_neg hk, ih (A ++ [y]) hA' fuel (by simp at hf; omega)]
      simp [chainOf, hk]

theorem WInv.calls {s : Sys} {a : AState} {tb : Nat → Nat → Nat} (h : WInv s a tb) (g k : Nat) :
    s.calls g k = some (chainOf (a.exts g) k) := by
  have hl : (s.graphs g).exts.length = (a.exts g).length := by rw [h.recs]; simp
  have := h.follow g k (a.exts g) [] rfl ((s.graphs g).exts.length + 1) (by omega)
  simp only [Sys.calls, h.funs g, Option.bind_eq_bind, Option.bind_some]
  exact this

end Verif.Props
