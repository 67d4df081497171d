import Verif.Ext.Lemmas

/-
Every operation of the extension system does what is intended.
-/
namespace Verif.Props
open Verif Verif.Ext Function

theorem WInv.heap_some {s : Sys} {a : AState} {tb : Nat → Nat → Nat} (h : WInv s a tb) {g : Nat} {x : AExt}
    (hx : x ∈ a.exts g) : s.heap x.c ≠ none := by
  obtain ⟨F, hF⟩ := (h.tabs g).get hx
  rw [hF]; simp

/-- Changing the heap at an address that no extension uses. -/
theorem WInv.heap {s : Sys} {a : AState} {tb : Nat → Nat → Nat} (h : WInv s a tb) {c : Nat}
    (hc : ∀ g, ∀ x ∈ a.exts g, x.c ≠ c) (t : Option Table) : WInv (s.setHeap c t) a tb :=
  { h with tabs := fun g => (h.tabs g).congr fun y hy => update_of_ne (hc g y hy) _ _ }

theorem WInv.fresh {s : Sys} {a : AState} {tb : Nat → Nat → Nat} (h : WInv s a tb) {c : Nat} (hc : s.heap c = none) :
    ∀ g, ∀ x ∈ a.exts g, x.c ≠ c := by
  rintro g x hx rfl
  exact h.heap_some hx hc

theorem WInv.assign {s : Sys} {a : AState} {tb : Nat → Nat → Nat} (h : WInv s a tb) (m : Nat) :
    WInv (s.assign m) { a with known := fun n => n = m ∨ a.known n } tb := by
  unfold Sys.assign
  split
  · next hm =>
    have hne : ∀ g, ∀ x ∈ a.exts g, x.m ≠ m := by
      rintro g x hx rfl
      exact (h.known _).1 (h.has g x hx) hm
    refine { h with recs := fun g => ?_, known := fun n => ?_, has := fun g x hx => Or.inr (h.has g x hx), inj := ?_, gen := ?_ }
    · refine (h.recs g).trans (List.map_congr_left fun x hx => ?_)
      simp only [recOf, update_of_ne (hne g x hx)]
    · by_cases hn : n = m
      · subst hn; simp
      · simp [hn, h.known n]
    · intro p q hpq hp
      by_cases h1 : p = m <;> by_cases h2 : q = m
      · rw [h1, h2]
      · subst h1
        simp only [update_self, update_of_ne h2] at hpq
        have := h.gen q; omega
      · subst h2
        simp only [update_self, update_of_ne h1] at hpq
        have := h.gen p; omega
      · simp only [update_of_ne h1, update_of_ne h2] at hpq hp
        exact h.inj p q hpq hp
    · intro n
      by_cases h1 : n = m
      · subst h1; simp
      · simp only [update_of_ne h1]
        have := h.gen n; omega
  · next hm =>
    refine { h with known := fun n => ?_, has := fun g x hx => Or.inr (h.has g x hx) }
    refine ⟨?_, fun hn => Or.inr ((h.known n).2 hn)⟩
    rintro (rfl | hn)
    · exact hm
    · exact (h.known n).1 hn

theorem assign_ids_ne (s : Sys) (m : Nat) : (s.assign m).ids m ≠ 0 := by
  unfold Sys.assign
  split
  · simp
  · assumption

theorem assign_graphs (s : Sys) (m : Nat) : (s.assign m).graphs = s.graphs := by
  unfold Sys.assign; split <;> rfl

theorem assign_heap (s : Sys) (m : Nat) : (s.assign m).heap = s.heap := by
  unfold Sys.assign; split <;> rfl

theorem contextOf_none {L : List AExt} {m : Nat} : contextOf L m = none ↔ ∀ x ∈ L, x.m ≠ m := by
  simp [contextOf]

theorem step_attach {s : Sys} {a : AState} {tb : Nat → Nat → Nat} (h : WInv s a tb) {g m c : Nat} {S : List Nat} {ok : Bool}
    (hv : s.Valid (.attach g m c S ok)) :
    ∃ s' r a' tb', s.attach g m c S ok = some (s', r) ∧ AStep a (.attach g m c S ok) r a' ∧ WInv s' a' tb' := by
  obtain ⟨hc, hS⟩ := hv
  have hfr := h.fresh hc
  have h1 := h.heap hfr (some fun k => if k ∈ S then some (.over m k) else none)
  have hfind := h1.find g m
  by_cases hp : ∀ x ∈ a.exts g, x.m ≠ m
  · rw [contextOf_none.2 hp] at hfind
    cases ok with
    | false =>
      refine ⟨_, _, _, tb, ?_, .attachFail hp, (h1.assign m).heap (c := c) hfr none⟩
      simp [Sys.attach, Sys.addExtension, hfind]
    | true =>
      have h2 := h1.assign m
      set s2 := (s.setHeap c (some fun k => if k ∈ S then some (.over m k) else none)).assign m with hs2
      have hh : s2.heap c = some fun k => if k ∈ S then some (.over m k) else none := by
        rw [hs2, assign_heap]; simp [Sys.setHeap]
      have hov := overload_eq (topT (a.exts g) Fn.core) m S hS
      have hfun : (s2.graphs g).funs = fun k => some (topT (a.exts g) Fn.core k) := h2.funs g
      refine ⟨(s2.setHeap c (some fun k => if k ∈ S then some (topT (a.exts g) Fn.core k) else none)).setGraph g
        { exts := ⟨s2.ids m, c, c⟩ :: (s2.graphs g).exts, funs := fun k => some (if k ∈ S then .over m k else topT (a.exts g) Fn.core k) },
        .ok, _, fun g' => update (tb g') c c, ?_, .attach hp, ?_⟩
      · simp only [Sys.attach, Sys.addExtension, hfind, Option.isSome_none, Bool.false_eq_true, if_false, if_true,
          Sys.insert, ← hs2, hh, Option.bind_eq_bind, Option.bind_some, hfun, hov, Option.pure_def]
      · constructor
        · intro g'
          by_cases hg : g' = g
          · subst hg
            simp only [Sys.setGraph, Sys.setHeap, update_self, List.map_cons, recOf]
            congr 1
            refine (h2.recs g').trans (List.map_congr_left fun x hx => ?_)
            simp only [recOf, update_of_ne (hfr g' x hx)]
          · simp only [Sys.setGraph, Sys.setHeap, update_of_ne hg]
            refine (h2.recs g').trans (List.map_congr_left fun x hx => ?_)
            simp only [recOf, update_of_ne (hfr g' x hx)]
        · intro g' hco x hx
          by_cases hg : g' = g
          · subst hg
            simp only [update_self, List.mem_cons] at hx
            rcases hx with rfl | hx
            · simp
            · rw [update_of_ne (hfr g' x hx)]; exact h.own g' hco x hx
          · simp only [update_of_ne hg] at hx
            rw [update_of_ne (hfr g' x hx)]; exact h.own g' hco x hx
        · intro g'
          by_cases hg : g' = g
          · subst hg
            simp [Sys.setGraph, Sys.setHeap, topT]
          · simp only [Sys.setGraph, Sys.setHeap, update_of_ne hg]
            exact h2.funs g'
        · intro g'
          have hold : Tabs (update s2.heap c (some fun k => if k ∈ S then some (topT (a.exts g) Fn.core k) else none))
              Fn.core (a.exts g') := (h2.tabs g').congr fun y hy => update_of_ne (hfr g' y hy) _ _
          by_cases hg : g' = g
          · subst hg
            simp only [Sys.setGraph, Sys.setHeap, update_self]
            exact ⟨by simp only [update_self]; rfl, hold⟩
          · simp only [Sys.setGraph, Sys.setHeap, update_of_ne hg]
            exact hold
        · intro g'
          by_cases hg : g' = g
          · subst hg
            simp only [update_self, List.map_cons, List.nodup_cons]
            refine ⟨fun hm => ?_, h.mods g'⟩
            obtain ⟨x, hx, he⟩ := List.mem_map.1 hm
            exact hp x hx he
          · simp only [update_of_ne hg]; exact h.mods g'
        · intro g'
          by_cases hg : g' = g
          · subst hg
            simp only [update_self, List.map_cons, List.nodup_cons]
            refine ⟨fun hm => ?_, h.ctxs g'⟩
            obtain ⟨x, hx, he⟩ := List.mem_map.1 hm
            exact hfr g' x hx he
          · simp only [update_of_ne hg]; exact h.ctxs g'
        · intro g1 g2 hne x hx y hy
          by_cases e1 : g1 = g <;> by_cases e2 : g2 = g
          · exact absurd (e1.trans e2.symm) hne
          · subst e1
            simp only [update_self, update_of_ne e2, List.mem_cons] at hx hy
            rcases hx with rfl | hx
            · exact (hfr g2 y hy).symm
            · exact h.apart g1 g2 hne x hx y hy
          · subst e2
            simp only [update_self, update_of_ne e1, List.mem_cons] at hx hy
            rcases hy with rfl | hy
            · exact hfr g1 x hx
            · exact h.apart g1 g2 hne x hx y hy
          · simp only [update_of_ne e1, update_of_ne e2] at hx hy
            exact h.apart g1 g2 hne x hx y hy
        · intro g' x hx
          by_cases hg : g' = g
          · subst hg
            simp only [update_self, List.mem_cons] at hx
            rcases hx with rfl | hx
            · exact hS
            · exact h.bound g' x hx
          · simp only [update_of_ne hg] at hx; exact h.bound g' x hx
        · exact h2.known
        · intro g' x hx
          by_cases hg : g' = g
          · subst hg
            simp only [update_self, List.mem_cons] at hx
            rcases hx with rfl | hx
            · exact Or.inl rfl
            · exact Or.inr (h.has g' x hx)
          · simp only [update_of_ne hg] at hx; exact Or.inr (h.has g' x hx)
        · exact h2.inj
        · exact h2.gen
  · have hp' : ∃ x ∈ a.exts g, x.m = m := by simpa using hp
    have hs : (contextOf (a.exts g) m).isSome := by
      rw [Option.isSome_iff_ne_none]
      exact fun hn => hp (contextOf_none.1 hn)
    rw [← hfind] at hs
    refine ⟨_, _, _, tb, ?_, .attachTwice hp', h1.heap hfr none⟩
    simp only [Sys.attach, Sys.addExtension]
    rw [if_pos hs]
    simp

theorem foldlM_free {s : Sys} (L : List Rec) (hd : (L.map Rec.ctx).Nodup) (hs : ∀ r ∈ L, s.heap r.ctx ≠ none) :
    ∃ s', L.foldlM Sys.freeExt s = some s' ∧ s'.graphs = s.graphs ∧ s'.ids = s.ids ∧ s'.gen = s.gen ∧
      ∀ c, s'.heap c = if c ∈ L.map Rec.ctx then none else s.heap c := by
  induction L generalizing s with
  | nil => exact ⟨s, rfl, rfl, rfl, rfl, by simp⟩
  | cons r L ih =>
    rw [List.map_cons, List.nodup_cons] at hd
    obtain ⟨t, ht⟩ := Option.ne_none_iff_exists'.1 (hs r (by simp))
    have hf : s.freeExt r = some (s.setHeap r.ctx none) := by simp [Sys.freeExt, ht]
    obtain ⟨s', h1, h2, h3, h4, h5⟩ := ih (s := s.setHeap r.ctx none) hd.2 (fun q hq => by
      simp only [Sys.setHeap]
      rw [update_of_ne (fun e => hd.1 (by rw [← e]; exact List.mem_map_of_mem hq))]
      exact hs q (by simp [hq]))
    refine ⟨s', by simp [List.foldlM_cons, hf, h1], h2, h3, h4, fun c => ?_⟩
    rw [h5 c]
    by_cases hc : c = r.ctx
    · subst hc; simp [Sys.setHeap]
    · simp [Sys.setHeap, hc]

theorem WInv.recs_nodup {s : Sys} {a : AState} {tb : Nat → Nat → Nat} (h : WInv s a tb) (g : Nat) :
    ((s.graphs g).exts.map Rec.ctx) = (a.exts g).map AExt.c := by
  rw [h.recs g, List.map_map]; rfl

theorem free_ok {s : Sys} {a : AState} {tb : Nat → Nat → Nat} (h : WInv s a tb) (g : Nat) :
    ∃ s', s.freeExtensions g = some s' ∧ s'.graphs = update s.graphs g {} ∧ s'.ids = s.ids ∧
      (∀ c, s'.heap c = none ↔ (s.heap c = none ∨ c ∈ (a.exts g).map AExt.c)) ∧
      WInv s' { a with exts := update a.exts g [], copied := update a.copied g False } tb := by
  obtain ⟨s', h1, h2, h3, h4, h5⟩ := foldlM_free (s := s) (s.graphs g).exts (by rw [h.recs_nodup]; exact h.ctxs g)
    (fun r hr => by
      rw [h.recs g, List.mem_map] at hr
      obtain ⟨x, hx, rfl⟩ := hr
      exact h.heap_some hx)
  rw [h.recs_nodup] at h5
  refine ⟨s'.setGraph g {}, by simp [Sys.freeExtensions, h1], by simp [Sys.setGraph, h2], by simp [Sys.setGraph, h3], fun c => ?_, ?_⟩
  · simp only [Sys.setGraph, h5 c]
    by_cases hc : c ∈ (a.exts g).map AExt.c <;> simp [hc]
  · have hmem : ∀ g' x, x ∈ update a.exts g [] g' → g' ≠ g ∧ x ∈ a.exts g' := by
      intro g' x hx
      by_cases hg : g' = g
      · subst hg; simp at hx
      · simp only [update_of_ne hg] at hx; exact ⟨hg, hx⟩
    constructor
    · intro g'
      by_cases hg : g' = g
      · subst hg; simp [Sys.setGraph]
      · simp only [Sys.setGraph, update_of_ne hg, h2, h3]; exact h.recs g'
    · intro g' hco x hx
      have := hmem g' x hx
      simp only [update_of_ne this.1] at hco
      exact h.own g' hco x this.2
    · intro g'
      by_cases hg : g' = g
      · subst hg; simp [Sys.setGraph, topT]
      · simp only [Sys.setGraph, update_of_ne hg, h2]; exact h.funs g'
    · intro g'
      by_cases hg : g' = g
      · subst hg; simp [Tabs]
      · simp only [update_of_ne hg]
        refine (h.tabs g').congr fun y hy => ?_
        simp only [Sys.setGraph, h5]
        rw [if_neg]
        intro hm
        obtain ⟨x, hx, he⟩ := List.mem_map.1 hm
        exact h.apart g' g hg y hy x hx he.symm
    · intro g'
      by_cases hg : g' = g
      · subst hg; simp
      · simp only [update_of_ne hg]; exact h.mods g'
    · intro g'
      by_cases hg : g' = g
      · subst hg; simp
      · simp only [update_of_ne hg]; exact h.ctxs g'
    · intro g1 g2 hne x hx y hy
      exact h.apart g1 g2 hne x (hmem g1 x hx).2 y (hmem g2 y hy).2
    · intro g' x hx; exact h.bound g' x (hmem g' x hx).2
    · intro m; simp only [Sys.setGraph, h3]; exact h.known m
    · intro g' x hx; exact h.has g' x (hmem g' x hx).2
    · simp only [Sys.setGraph, h3]; exact h.inj
    · simp only [Sys.setGraph, h3, h4]; exact h.gen

theorem nearest_eq {s : Sys} {T : Nat → Fn} {k : Nat} {f : AExt → Rec} {target : Rec} {rest : List Rec} (A : List AExt)
    (hA : Tabs s.heap T A) (hf : ∀ y ∈ A, (f y).tbl = y.c) (hne : ∀ y ∈ A, f y ≠ target) (found : Option Rec) :
    s.nearest target k (A.map f ++ target :: rest) found = some (((near A k).map f).or found) := by
  induction A generalizing found with
  | nil => simp [Sys.nearest, near]
  | cons y L ih =>
    have hih := ih hA.2 (fun z hz => hf z (by simp [hz])) (fun z hz => hne z (by simp [hz]))
    simp only [List.map_cons, List.cons_append, Sys.nearest, hne y (by simp), if_false, hf y (by simp), hA.1,
      Option.bind_eq_bind, Option.bind_some, hih]
    congr 1
    simp only [near]
    rcases hn : near L k with _ | z
    · by_cases hk : k ∈ y.S <;> simp [tab, hk]
    · simp

/-- The loop of _FixupFunctionTables. -/
theorem fixup_loop {g : Nat} {x : AExt} {F : Nat → Fn} {A B : List AExt} {ids tb : Nat → Nat}
    (hf : ∀ y ∈ A, tb y.c = y.c) (hx : tb x.c = x.c) (hne : ∀ y ∈ A, y.c ≠ x.c) (hd : (A.map AExt.c).Nodup) (l : List Nat) :
    ∀ (s : Sys) (T : Nat → Fn), (s.graphs g).exts = (A ++ x :: B).map (recOf ids tb) →
      Tabs s.heap T A → (s.graphs g).funs = (fun k => some (topT A T k)) → s.heap x.c = some (tab x F) →
    ∃ s', l.foldlM (Sys.fixup g (recOf ids tb x)) s = some s' ∧
      Tabs s'.heap (fun k => if k ∈ l ∧ k ∈ x.S then F k else T k) A ∧
      (s'.graphs g).funs = (fun k => some (topT A (fun k => if k ∈ l ∧ k ∈ x.S then F k else T k) k)) ∧
      (s'.graphs g).exts = (A ++ x :: B).map (recOf ids tb) ∧ (∀ g', g' ≠ g → s'.graphs g' = s.graphs g') ∧
      s'.ids = s.ids ∧ s'.gen = s.gen ∧ ∀ c, (∀ y ∈ A, y.c ≠ c) → s'.heap c = s.heap c := by
  induction l with
  | nil =>
    intro s T h1 h2 h3 h4
    exact ⟨s, rfl, by simpa using h2, by simpa using h3, h1, fun _ _ => rfl, rfl, rfl, fun _ _ => rfl⟩
  | cons k l ih =>
    intro s T h1 h2 h3 h4
    have hstep : ∃ s1, Sys.fixup g (recOf ids tb x) s k = some s1 ∧
        Tabs s1.heap (if k ∈ x.S then update T k (F k) else T) A ∧
        (s1.graphs g).funs = (fun j => some (topT A (if k ∈ x.S then update T k (F k) else T) j)) ∧
        (s1.graphs g).exts = (A ++ x :: B).map (recOf ids tb) ∧ (∀ g', g' ≠ g → s1.graphs g' = s.graphs g') ∧
        s1.ids = s.ids ∧ s1.gen = s.gen ∧ (∀ c, (∀ y ∈ A, y.c ≠ c) → s1.heap c = s.heap c) := by
      by_cases hk : k ∈ x.S
      · have hnr := nearest_eq (s := s) (k := k) (f := recOf ids tb) (target := recOf ids tb x) (rest := B.map (recOf ids tb)) A h2
          (fun y hy => hf y hy) (fun y hy he => hne y hy (congrArg Rec.ctx he)) none
        have hlist : (s.graphs g).exts = A.map (recOf ids tb) ++ recOf ids tb x :: B.map (recOf ids tb) := by
          rw [h1]; simp
        rw [← hlist] at hnr
        have hx' : (recOf ids tb x).tbl = x.c := hx
        simp only [hk, if_true]
        rcases hn : near A k with _ | z
        · refine ⟨s.setGraph g { (s.graphs g) with funs := update (s.graphs g).funs k (some (F k)) }, ?_, ?_, ?_, ?_, ?_, rfl, rfl, fun _ _ => rfl⟩
          · simp [Sys.fixup, hx', h4, tab, hk, hnr, hn, Sys.setEntry]
          · exact h2.update_none hn _
          · simp only [Sys.setGraph, update_self, h3, topT_update_none hn]
            funext j
            by_cases hj : j = k
            · subst hj; simp
            · simp [hj]
          · simp only [Sys.setGraph, update_self, h1]
          · intro g' hg; simp [Sys.setGraph, hg]
        · have hz := near_mem hn
          obtain ⟨G, hG⟩ := h2.get hz.1
          refine ⟨s.setHeap z.c (some (update (tab z G) k (some (F k)))), ?_, ?_, ?_, h1, fun _ _ => rfl, rfl, rfl, ?_⟩
          · have hz' : (recOf ids tb z).tbl = z.c := hf z hz.1
            simp [Sys.fixup, hx', h4, tab, hk, hnr, hn, Sys.setEntry, hz', hG]
          · exact h2.update_some hn hd hG _
          · show (s.graphs g).funs = _
            rw [h3, topT_update_some (by rw [hn]; simp)]
          · intro c hc
            exact update_of_ne (hc z hz.1).symm _ _
      · have hx' : (recOf ids tb x).tbl = x.c := hx
        simp only [hk, if_false]
        exact ⟨s, by simp [Sys.fixup, hx', h4, tab, hk], h2, h3, h1, fun _ _ => rfl, rfl, rfl, fun _ _ => rfl⟩
    obtain ⟨s1, e1, e2, e3, e4, e5, e6, e7, e8⟩ := hstep
    obtain ⟨s2, f1, f2, f3, f4, f5, f6, f7, f8⟩ := ih s1 _ e4 e2 e3 ((e8 x.c hne).trans h4)
    have hT : (fun j => if j ∈ l ∧ j ∈ x.S then F j else (if k ∈ x.S then update T k (F k) else T) j) =
        fun j => if j ∈ k :: l ∧ j ∈ x.S then F j else T j := by
      funext j
      by_cases hj : j = k
      · subst hj
        by_cases hk : j ∈ x.S <;> simp [hk]
      · by_cases hk : k ∈ x.S <;> simp [hk, hj]
    rw [hT] at f2 f3
    refine ⟨s2, by simp [List.foldlM_cons, e1, f1], f2, f3, f4, fun g' hg => (f5 g' hg).trans (e5 g' hg), f6.trans e6, f7.trans e7,
      fun c hc => (f8 c hc).trans (e8 c hc)⟩

theorem filter_split {A B : List AExt} {x : AExt} (hd : ((A ++ x :: B).map AExt.m).Nodup) :
    (A ++ x :: B).filter (fun y => decide (y.m ≠ x.m)) = A ++ B := by
  have hall : ∀ y, (y ∈ A ∨ y ∈ B) → y.m ≠ x.m := by
    rw [List.map_append, List.map_cons, List.nodup_append] at hd
    obtain ⟨_, h2, h3⟩ := hd
    rw [List.nodup_cons] at h2
    rintro y (hy | hy) he
    · exact h3 _ (List.mem_map_of_mem hy) x.m (by simp) he
    · exact h2.1 (by rw [← he]; exact List.mem_map_of_mem hy)
  rw [List.filter_append, List.filter_cons_of_neg (by simp), List.filter_eq_self.2, List.filter_eq_self.2]
  · intro y hy; simpa using hall y (Or.inr hy)
  · intro y hy; simpa using hall y (Or.inl hy)

theorem step_remove {s : Sys} {a : AState} {tb : Nat → Nat → Nat} (h : WInv s a tb) {g m : Nat} (hco : ¬ a.copied g) :
    ∃ s' r a' tb', s.removeExtension g (s.ids m) = some (s', r) ∧ AStep a (.remove g m) r a' ∧ WInv s' a' tb' := by
  by_cases hm : s.ids m = 0
  · refine ⟨s, .notok, a, tb, by simp [Sys.removeExtension, hm], .removeUnknown ?_, h⟩
    rw [h.known]; simp [hm]
  · have hk : a.known m := (h.known m).2 hm
    have hfr := findRec_map (s := s) (tb := tb g) (L := a.exts g) m hm h.inj
    rw [← h.recs g] at hfr
    rcases hf : (a.exts g).find? (fun x => decide (x.m = m)) with _ | x
    · rw [hf] at hfr
      refine ⟨s, .ok, _, tb, by simp [Sys.removeExtension, hm, hfr], .remove hk, ?_⟩
      have : (a.exts g).filter (fun x => decide (x.m ≠ m)) = a.exts g := by
        rw [List.filter_eq_self]
        intro x hx
        simpa using List.find?_eq_none.1 hf x hx
      rw [this, update_eq_self]
      exact h
    · rw [hf] at hfr
      have hxm : x.m = m := by simpa using List.find?_some hf
      subst hxm
      have hxmem := List.mem_of_find?_eq_some hf
      obtain ⟨A, B, hAB⟩ := List.append_of_mem hxmem
      have hd := h.ctxs g
      have hdm := h.mods g
      rw [hAB] at hd hdm
      have hsplit := filter_split hdm
      have hnd := hd
      rw [List.map_append, List.map_cons, List.nodup_append] at hnd
      obtain ⟨hdA, hdB, hAB'⟩ := hnd
      have hneA : ∀ y ∈ A, y.c ≠ x.c := fun y hy => hAB' _ (List.mem_map_of_mem hy) x.c (by simp)
      rw [List.nodup_cons] at hdB
      have hneB : ∀ y ∈ B, y.c ≠ x.c := fun y hy he => hdB.1 (by rw [← he]; exact List.mem_map_of_mem hy)
      have ht := h.tabs g
      rw [hAB, Tabs.append] at ht
      obtain ⟨htA, htx, htB⟩ := ht
      have hrec := h.recs g
      rw [hAB] at hrec
      have hfun := h.funs g
      rw [hAB, topT_append] at hfun
      have hown : ∀ y ∈ A ++ x :: B, tb g y.c = y.c := by rw [← hAB]; exact h.own g hco
      obtain ⟨s1, f1, f2, f3, f4, f5, f6, f7, f8⟩ := fixup_loop (g := g) (x := x) (F := topT B Fn.core) (A := A) (B := B)
        (ids := s.ids) (tb := tb g) (fun y hy => hown y (by simp [hy])) (hown x (by simp)) hneA hdA (List.range numFunctions) s _
        hrec htA hfun htx
      have hT : (fun k => if k ∈ List.range numFunctions ∧ k ∈ x.S then topT B Fn.core k else topT (x :: B) Fn.core k) =
          topT B Fn.core := by
        funext k
        by_cases hk : k ∈ x.S
        · have := h.bound g x hxmem k hk
          simp [hk, this]
        · simp [hk, topT]
      rw [hT] at f2 f3
      rw [← topT_append] at f3
      have hxh : s1.heap x.c = some (tab x (topT B Fn.core)) := (f8 x.c hneA).trans htx
      have herase : ((A ++ x :: B).map (recOf s.ids (tb g))).erase (recOf s.ids (tb g) x) = (A ++ B).map (recOf s.ids (tb g)) := by
        rw [List.map_append, List.map_cons, List.erase_append_right, List.erase_cons_head, List.map_append]
        intro hmem
        obtain ⟨y, hy, he⟩ := List.mem_map.1 hmem
        exact hneA y hy (congrArg Rec.ctx he)
      refine ⟨(s1.setGraph g { (s1.graphs g) with exts := (A ++ B).map (recOf s.ids (tb g)) }).setHeap x.c none, .ok, _, tb, ?_, .remove hk, ?_⟩
      · simp only [Sys.removeExtension, hm, if_false, hfr, Option.map_some, f1, Option.bind_eq_bind, Option.bind_some, Sys.unhook,
          f4, herase, Sys.freeExt]
        simp only [Sys.setGraph, recOf, hxh, Option.bind_some, Option.pure_def]
      · rw [hAB, hsplit]
        have hmem : ∀ g' y, y ∈ update a.exts g (A ++ B) g' → y ∈ a.exts g' := by
          intro g' y hy
          by_cases hg : g' = g
          · subst hg
            rw [update_self] at hy
            rw [hAB]
            rcases List.mem_append.1 hy with hy | hy <;> simp [hy]
          · rwa [update_of_ne hg] at hy
        have hsub : List.Sublist (A ++ B) (A ++ x :: B) := (List.sublist_cons_self x B).append_left A
        constructor
        · intro g'
          by_cases hg : g' = g
          · subst hg; simp [Sys.setGraph, Sys.setHeap, f6]
          · simp only [Sys.setGraph, Sys.setHeap, update_of_ne hg, f5 g' hg, f6]; exact h.recs g'
        · intro g' hco y hy
          exact h.own g' hco y (hmem g' y hy)
        · intro g'
          by_cases hg : g' = g
          · subst hg; simp [Sys.setGraph, Sys.setHeap, f3]
          · simp only [Sys.setGraph, Sys.setHeap, update_of_ne hg, f5 g' hg]; exact h.funs g'
        · intro g'
          by_cases hg : g' = g
          · subst hg
            simp only [update_self, Sys.setHeap, Sys.setGraph]
            rw [Tabs.append]
            refine ⟨f2.congr fun y hy => update_of_ne (hneA y hy) _ _, htB.congr fun y hy => ?_⟩
            rw [update_of_ne (hneB y hy)]
            refine f8 y.c fun z hz => hAB' _ (List.mem_map_of_mem hz) y.c ?_
            exact List.mem_cons_of_mem _ (List.mem_map_of_mem hy)
          · simp only [update_of_ne hg, Sys.setHeap, Sys.setGraph]
            refine (h.tabs g').congr fun y hy => ?_
            have hap : ∀ z ∈ A ++ x :: B, z.c ≠ y.c := by
              rw [← hAB]
              exact fun z hz => h.apart g g' (Ne.symm hg) z hz y hy
            rw [update_of_ne (hap x (by simp)).symm]
            exact f8 y.c fun z hz => hap z (by simp [hz])
        · intro g'
          by_cases hg : g' = g
          · subst hg; simp only [update_self]; exact hdm.sublist (hsub.map _)
          · simp only [update_of_ne hg]; exact h.mods g'
        · intro g'
          by_cases hg : g' = g
          · subst hg; simp only [update_self]; exact hd.sublist (hsub.map _)
          · simp only [update_of_ne hg]; exact h.ctxs g'
        · intro g1 g2 hne y hy z hz
          exact h.apart g1 g2 hne y (hmem g1 y hy) z (hmem g2 z hz)
        · intro g' y hy; exact h.bound g' y (hmem g' y hy)
        · intro n; simp only [Sys.setHeap, Sys.setGraph, f6]; exact h.known n
        · intro g' y hy; exact h.has g' y (hmem g' y hy)
        · simp only [Sys.setHeap, Sys.setGraph, f6]; exact h.inj
        · simp only [Sys.setHeap, Sys.setGraph, f6, f7]; exact h.gen

/-- The extension of a copy. -/
def moved (x : AExt) (c : Nat) : AExt := ⟨x.m, c, x.S⟩

theorem topT_moved (T : Nat → Fn) : ∀ (L : List AExt) (l : List Nat), l.length = L.length →
    topT (List.zipWith moved L l) T = topT L T
  | [], [], _ => rfl
  | y :: L, c :: l, h => by
    funext k
    simp only [List.zipWith_cons_cons, topT, moved]
    rw [topT_moved T L l (by simpa using h)]

theorem map_moved_m : ∀ (L : List AExt) (l : List Nat), l.length = L.length →
    (List.zipWith moved L l).map AExt.m = L.map AExt.m
  | [], [], _ => rfl
  | y :: L, c :: l, h => by
    simp only [List.zipWith_cons_cons, List.map_cons, map_moved_m L l (by simpa using h)]; rfl

theorem map_moved_c : ∀ (L : List AExt) (l : List Nat), l.length = L.length →
    (List.zipWith moved L l).map AExt.c = l
  | [], [], _ => rfl
  | y :: L, c :: l, h => by
    simp only [List.zipWith_cons_cons, List.map_cons, map_moved_c L l (by simpa using h)]; rfl

theorem mem_moved {L : List AExt} {l : List Nat} {x : AExt} (h : x ∈ List.zipWith moved L l) :
    ∃ y ∈ L, ∃ c ∈ l, x = moved y c := by
  induction L generalizing l with
  | nil => simp at h
  | cons y L ih =>
    cases l with
    | nil => simp at h
    | cons c l =>
      rw [List.zipWith_cons_cons, List.mem_cons] at h
      rcases h with rfl | h
      · exact ⟨y, by simp, c, by simp, rfl⟩
      · obtain ⟨y', hy, c', hc, e⟩ := ih h
        exact ⟨y', by simp [hy], c', by simp [hc], e⟩

theorem moved_recs (ids tb : Nat → Nat) : ∀ (L : List AExt) (l : List Nat), l.Nodup →
    ∃ φ : Nat → Nat, List.zipWith (fun y c => (⟨ids y.m, c, tb y.c⟩ : Rec)) L l = (List.zipWith moved L l).map (recOf ids φ) := by
  intro L
  induction L with
  | nil => intro l _; exact ⟨id, by simp⟩
  | cons y L ih =>
    intro l hl
    cases l with
    | nil => exact ⟨id, by simp⟩
    | cons c l =>
      rw [List.nodup_cons] at hl
      obtain ⟨φ, hφ⟩ := ih l hl.2
      refine ⟨update φ c (tb y.c), ?_⟩
      simp only [List.zipWith_cons_cons, List.map_cons, hφ]
      congr 1
      · simp [recOf, moved]
      · refine List.map_congr_left fun x hx => ?_
        obtain ⟨z, _, c', hc', rfl⟩ := mem_moved hx
        have : c' ≠ c := fun e => hl.1 (e ▸ hc')
        simp [recOf, moved, this]

theorem copyLoop_ok {d : Nat} {ids tb : Nat → Nat} {T : Nat → Fn} : ∀ (L : List AExt) (l : List Nat) (s : Sys) (fail : Option Nat),
    Tabs s.heap T L → l.length = L.length → l.Nodup → (∀ c ∈ l, s.heap c = none) → (∀ i, fail = some i → L.length ≤ i) →
    ∃ s', s.copyLoop d (L.map (recOf ids tb)) l fail = some (s', .ok) ∧ (∀ g, g ≠ d → s'.graphs g = s.graphs g) ∧
      (s'.graphs d).exts = (s.graphs d).exts ++ List.zipWith (fun y c => (⟨ids y.m, c, tb y.c⟩ : Rec)) L l ∧
      s'.ids = s.ids ∧ s'.gen = s.gen ∧ (∀ c, c ∉ l → s'.heap c = s.heap c) ∧
      Tabs s'.heap T (List.zipWith moved L l) := by
  intro L
  induction L with
  | nil =>
    intro l s fail _ hl _ _ _
    have : l = [] := by simpa using hl
    subst this
    exact ⟨s, rfl, fun _ _ => rfl, by simp, rfl, rfl, fun _ _ => rfl, trivial⟩
  | cons y L ih =>
    intro l s fail ht hl hd hfr hfail
    cases l with
    | nil => simp at hl
    | cons c l =>
      rw [List.nodup_cons] at hd
      have hfresh : ∀ z ∈ y :: L, z.c ≠ c := by
        rintro z hz rfl
        obtain ⟨F, hF⟩ := ht.get hz
        rw [hfr z.c (by simp)] at hF
        cases hF
      set s1 := (s.setHeap c (some (tab y (topT L T)))).setGraph d
        { (s.graphs d) with exts := (s.graphs d).exts ++ [⟨ids y.m, c, tb y.c⟩] } with hs1
      have hheap : s1.heap = update s.heap c (some (tab y (topT L T))) := rfl
      obtain ⟨s', e1, e2, e3, e4, e5, e6, e7⟩ := ih l s1 (fail.map (· - 1))
        (ht.2.congr fun z hz => by rw [hheap]; exact update_of_ne (hfresh z (by simp [hz])) _ _)
        (by simpa using hl) hd.2
        (fun b hb => by
          rw [hheap, update_of_ne (fun e : b = c => hd.1 (e ▸ hb))]
          exact hfr b (by simp [hb]))
        (fun i hi => by
          rcases fail with _ | j
          · cases hi
          · have := hfail j rfl
            simp only [Option.map_some, Option.some.injEq] at hi
            simp only [List.length_cons] at this
            omega)
      refine ⟨s', ?_, fun g hg => ?_, ?_, e4, e5, fun b hb => ?_, ?_, ?_⟩
      · rw [← e1]
        rcases fail with _ | j
        · simp only [List.map_cons, Sys.copyLoop, recOf, ht.1, Option.bind_eq_bind, Option.bind_some]
          rfl
        · have := hfail j rfl
          obtain ⟨j, rfl⟩ : ∃ i, j = i + 1 := ⟨j - 1, by simp at this; omega⟩
          simp only [List.map_cons, Sys.copyLoop, recOf, ht.1, Option.bind_eq_bind, Option.bind_some]
          rfl
      · rw [e2 g hg, hs1]; simp [Sys.setGraph, Sys.setHeap, hg]
      · rw [e3, hs1]; simp [Sys.setGraph, Sys.setHeap]
      · rw [List.mem_cons, not_or] at hb
        rw [e6 b hb.2, hheap, update_of_ne hb.1]
      · show s'.heap c = _
        rw [e6 c hd.1, hheap, update_self]
        show some (tab y (topT L T)) = some (tab y (topT (List.zipWith moved L l) T))
        rw [topT_moved T L l (by simpa using hl)]
      · exact e7

theorem copyLoop_fail {d : Nat} {ids tb : Nat → Nat} {T : Nat → Fn} : ∀ (L : List AExt) (l : List Nat) (s : Sys) (i : Nat),
    Tabs s.heap T L → l.length = L.length → l.Nodup → (∀ c ∈ l, s.heap c = none) → i < L.length →
    ((s.graphs d).exts.map Rec.ctx).Nodup → (∀ r ∈ (s.graphs d).exts, s.heap r.ctx ≠ none) →
    (∀ y ∈ L, y.c ∉ (s.graphs d).exts.map Rec.ctx) →
    ∃ s', s.copyLoop d (L.map (recOf ids tb)) l (some i) = some (s', .notok) ∧ s'.graphs = update s.graphs d {} ∧
      s'.ids = s.ids ∧ s'.gen = s.gen ∧ ∀ c, s'.heap c = if c ∈ (s.graphs d).exts.map Rec.ctx then none else s.heap c := by
  intro L
  induction L with
  | nil => intro l s i _ _ _ _ h; simp at h
  | cons y L ih =>
    intro l s i ht hl hd hfr hi hn hs hap
    cases i with
    | zero =>
      obtain ⟨s', h1, h2, h3, h4, h5⟩ := foldlM_free (s.graphs d).exts hn hs
      refine ⟨s'.setGraph d {}, ?_, by simp [Sys.setGraph, h2], h3, h4, h5⟩
      cases l <;> simp [Sys.copyLoop, Sys.freeExtensions, h1]
    | succ i =>
      cases l with
      | nil => simp at hl
      | cons c l =>
        rw [List.nodup_cons] at hd
        have hfresh : ∀ z ∈ y :: L, z.c ≠ c := by
          rintro z hz rfl
          obtain ⟨F, hF⟩ := ht.get hz
          rw [hfr z.c (by simp)] at hF
          cases hF
        have hc : c ∉ (s.graphs d).exts.map Rec.ctx := by
          intro hm
          obtain ⟨r, hr, e⟩ := List.mem_map.1 hm
          exact hs r hr (by rw [e]; exact hfr c (by simp))
        set s1 := (s.setHeap c (some (tab y (topT L T)))).setGraph d
          { (s.graphs d) with exts := (s.graphs d).exts ++ [⟨ids y.m, c, tb y.c⟩] } with hs1
        have hheap : s1.heap = update s.heap c (some (tab y (topT L T))) := rfl
        have hex : (s1.graphs d).exts.map Rec.ctx = (s.graphs d).exts.map Rec.ctx ++ [c] := by
          rw [hs1]; simp [Sys.setGraph]
        obtain ⟨s', e1, e2, e3, e4, e5⟩ := ih l s1 i
          (ht.2.congr fun z hz => by rw [hheap]; exact update_of_ne (hfresh z (by simp [hz])) _ _)
          (by simpa using hl) hd.2
          (fun b hb => by
            rw [hheap, update_of_ne (fun e : b = c => hd.1 (e ▸ hb))]
            exact hfr b (by simp [hb]))
          (by simpa using hi)
          (by rw [hex]; simp only [List.nodup_append]; exact ⟨hn, by simp, by rintro p hp q hq rfl; simp at hq; exact hc (hq ▸ hp)⟩)
          (fun r hr => by
            have hm : r.ctx ∈ (s1.graphs d).exts.map Rec.ctx := List.mem_map_of_mem hr
            rw [hex, List.mem_append, List.mem_singleton] at hm
            rw [hheap]
            by_cases e : r.ctx = c
            · rw [e, update_self]; simp
            · rw [update_of_ne e]
              rcases hm with hm | hm
              · obtain ⟨q, hq, e'⟩ := List.mem_map.1 hm
                rw [← e']; exact hs q hq
              · exact absurd hm e)
          (fun z hz => by
            rw [hex, List.mem_append, List.mem_singleton, not_or]
            exact ⟨hap z (by simp [hz]), hfresh z (by simp [hz])⟩)
        refine ⟨s', ?_, ?_, e3, e4, fun b => ?_⟩
        · rw [← e1]
          simp only [List.map_cons, Sys.copyLoop, recOf, ht.1, Option.bind_eq_bind, Option.bind_some]
          rfl
        · rw [e2, hs1]; simp [Sys.setGraph, Sys.setHeap]
        · rw [e5 b, hex, hheap]
          by_cases e : b = c
          · subst e; simp [hc, hfr b (by simp)]
          · simp [e]

theorem step_copy {s : Sys} {a : AState} {tb : Nat → Nat → Nat} (h : WInv s a tb) {d src : Nat} {l : List Nat} {fail : Option Nat}
    (hv : s.Valid (.copy d src l fail)) :
    ∃ s' r a' tb', s.copyExtensions d src l fail = some (s', r) ∧ AStep a (.copy d src l fail) r a' ∧ WInv s' a' tb' := by
  obtain ⟨hne, hd, hfr, hlen⟩ := hv
  obtain ⟨s1, f1, f2, f3, f4, h1⟩ := free_ok h d
  have hsrc : (s1.graphs src).exts = (a.exts src).map (recOf s1.ids (tb src)) := by
    have := h1.recs src
    simpa [update_of_ne (Ne.symm hne)] using this
  have hlen' : l.length = (a.exts src).length := by rw [hlen, h.recs src]; simp
  have htab : Tabs s1.heap Fn.core (a.exts src) := by
    have := h1.tabs src
    simpa [update_of_ne (Ne.symm hne)] using this
  have hfr1 : ∀ c ∈ l, s1.heap c = none := fun c hc => (f4 c).2 (Or.inl (hfr c hc))
  have hdx : (s1.graphs d) = {} := by rw [f2, update_self]
  by_cases hf : ∃ i, fail = some i ∧ i < (a.exts src).length
  · obtain ⟨i, rfl, hi⟩ := hf
    obtain ⟨s2, g1, g2, g3, g4, g5⟩ := copyLoop_fail (d := d) (ids := s1.ids) (tb := tb src) (a.exts src) l s1 i htab hlen' hd hfr1 hi
      (by rw [hdx]; simp) (by rw [hdx]; simp) (by rw [hdx]; simp)
    refine ⟨s2, .notok, _, tb, by simp [Sys.copyExtensions, f1, hsrc, g1], .copyFail hi, ?_⟩
    have hs : s2 = s1 := by
      have e1 : s2.graphs = s1.graphs := by rw [g2, ← hdx, update_eq_self]
      have e2 : s2.heap = s1.heap := by funext c; rw [g5 c, hdx]; simp
      cases s1; cases s2; simp_all
    rw [hs]
    exact h1
  · obtain ⟨s2, g1, g2, g3, g4, g5, g6, g7⟩ := copyLoop_ok (d := d) (ids := s1.ids) (tb := tb src) (a.exts src) l s1 fail htab hlen' hd hfr1
      (fun i hi => by
        by_contra hlt
        exact hf ⟨i, hi, by omega⟩)
    obtain ⟨φ, hφ⟩ := moved_recs s1.ids (tb src) (a.exts src) l hd
    rw [hφ, hdx] at g3
    have g3 : (s2.graphs d).exts = (List.zipWith moved (a.exts src) l).map (recOf s1.ids φ) := by simpa using g3
    refine ⟨s2.setGraph d { (s2.graphs d) with funs := (s2.graphs src).funs }, .ok, _, update tb d φ,
      by simp [Sys.copyExtensions, f1, hsrc, g1], .copy (fun i hi => by
        by_contra hlt
        exact hf ⟨i, hi, by omega⟩), ?_⟩
    have hmem : ∀ g x, g ≠ d → x ∈ a.exts g → x.c ∉ l := by
      intro g x hg hx hm
      have := h1.heap_some (g := g) (x := x) (by simpa [update_of_ne hg] using hx)
      exact this (hfr1 _ hm)
    constructor
    · intro g
      by_cases hg : g = d
      · subst hg
        simp only [Sys.setGraph, update_self, g3, g4]; rfl
      · simp only [Sys.setGraph, update_of_ne hg, g2 g hg, g4]
        have := h1.recs g
        simpa [update_of_ne hg] using this
    · intro g hco x hx
      by_cases hg : g = d
      · subst hg; exact absurd trivial (by simpa using hco)
      · simp only [update_of_ne hg] at hco hx ⊢
        exact h.own g hco x hx
    · intro g
      have hs := h1.funs src
      simp only [update_of_ne (Ne.symm hne)] at hs
      by_cases hg : g = d
      · subst hg
        simp only [Sys.setGraph, update_self, g2 src (Ne.symm hne), hs]
        funext k
        exact congrArg some (congrFun (topT_moved Fn.core (a.exts src) l hlen').symm k)
      · simp only [Sys.setGraph, update_of_ne hg, g2 g hg]
        have := h1.funs g
        simpa [update_of_ne hg] using this
    · intro g
      by_cases hg : g = d
      · subst hg
        simp only [Sys.setGraph, update_self]; exact g7
      · simp only [Sys.setGraph, update_of_ne hg]
        have := h1.tabs g
        simp only [update_of_ne hg] at this
        exact this.congr fun y hy => g6 y.c (hmem g y hg hy)
    · intro g
      by_cases hg : g = d
      · subst hg
        simp only [update_self]
        have := map_moved_m (a.exts src) l hlen'
        exact this ▸ h.mods src
      · simp only [update_of_ne hg]; exact h.mods g
    · intro g
      by_cases hg : g = d
      · subst hg
        simp only [update_self]
        have := map_moved_c (a.exts src) l hlen'
        exact this.symm ▸ hd
      · simp only [update_of_ne hg]; exact h.ctxs g
    · intro p q hg12 x hx y hy
      by_cases e1 : p = d <;> by_cases e2 : q = d
      · exact absurd (e1.trans e2.symm) hg12
      · subst e1
        simp only [update_self, update_of_ne e2] at hx hy
        obtain ⟨z, _, c, hc, rfl⟩ := mem_moved hx
        exact fun e => hmem q y e2 hy (e ▸ hc)
      · subst e2
        simp only [update_self, update_of_ne e1] at hx hy
        obtain ⟨z, _, c, hc, rfl⟩ := mem_moved hy
        exact fun e => hmem p x e1 hx (e.symm ▸ hc)
      · simp only [update_of_ne e1, update_of_ne e2] at hx hy
        exact h.apart p q hg12 x hx y hy
    · intro g x hx
      by_cases hg : g = d
      · subst hg
        simp only [update_self] at hx
        obtain ⟨z, hz, c, _, rfl⟩ := mem_moved hx
        exact h.bound src z hz
      · simp only [update_of_ne hg] at hx; exact h.bound g x hx
    · intro m; simp only [Sys.setGraph, g4]; exact h1.known m
    · intro g x hx
      by_cases hg : g = d
      · subst hg
        simp only [update_self] at hx
        obtain ⟨z, hz, c, _, rfl⟩ := mem_moved hx
        exact h.has src z hz
      · simp only [update_of_ne hg] at hx; exact h.has g x hx
    · simp only [Sys.setGraph, g4]; exact h1.inj
    · simp only [Sys.setGraph, g4, g5]; exact h1.gen

end Verif.Props
