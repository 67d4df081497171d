import Verif.Ext.Steps

/-
Properties of the extension system: C47, C48, C49.
-/
namespace Verif.Props
open Verif Verif.Ext Function

/-- The intended effect of an operation is unique. -/
theorem AStep.det {a a1 a2 : AState} {op : Ext.Op} {r1 r2 : Res} (h1 : AStep a op r1 a1) (h2 : AStep a op r2 a2) :
    r1 = r2 ∧ a1 = a2 := by
  cases h1 <;> cases h2 <;> first
    | exact ⟨rfl, rfl⟩
    | (exfalso; next h _ h' => obtain ⟨x, hx, e⟩ := h; exact h' x hx e)
    | (exfalso; next h h' => obtain ⟨x, hx, e⟩ := h; exact h' x hx e)
    | (exfalso; next h h' => obtain ⟨x, hx, e⟩ := h'; exact h x hx e)
    | (exfalso; next h h' => exact h h')
    | (exfalso; next h h' => exact h' h)
    | (exfalso; next h h' => exact absurd h (Nat.not_lt.2 (h' _ rfl)))
    | (exfalso; next h h' => exact absurd h' (Nat.not_lt.2 (h _ rfl)))

/-- The intended effect of a sequence of operations is unique. -/
theorem ARun.det {a a1 a2 : AState} {ops : List Ext.Op} {r1 r2 : List Res} (h1 : ARun a ops r1 a1) (h2 : ARun a ops r2 a2) :
    r1 = r2 ∧ a1 = a2 := by
  induction h1 generalizing r2 a2 with
  | nil => cases h2; exact ⟨rfl, rfl⟩
  | cons hs _ ih =>
    cases h2 with
    | cons hs' hr' =>
      obtain ⟨rfl, rfl⟩ := hs.det hs'
      obtain ⟨rfl, rfl⟩ := ih hr'
      exact ⟨rfl, rfl⟩

theorem run_ok : ∀ (ops : List Ext.Op) (s : Sys) (a : AState) (tb : Nat → Nat → Nat), WInv s a tb → s.ValidRun ops →
    (∀ pre g m post, ops = pre ++ .remove g m :: post → ∀ rs a', ARun a pre rs a' → ¬ a'.copied g) →
    ∃ s' rs a' tb', s.run ops = some (s', rs) ∧ ARun a ops rs a' ∧ WInv s' a' tb' := by
  intro ops
  induction ops with
  | nil => intro s a tb h _ _; exact ⟨s, [], a, tb, rfl, .nil, h⟩
  | cons op ops ih =>
    intro s a tb h hv hc
    have hstep : ∃ s' r a' tb', s.step op = some (s', r) ∧ AStep a op r a' ∧ WInv s' a' tb' := by
      have hvo := hv.1
      cases op with
      | attach g m c S ok => exact step_attach h hvo
      | remove g m => exact step_remove h (hc [] g m ops rfl [] a .nil)
      | free g =>
        obtain ⟨s', h1, _, _, _, h2⟩ := free_ok h g
        exact ⟨s', .ok, _, tb, by simp [Sys.step, h1], .free, h2⟩
      | copy d src l fail => exact step_copy h hvo
    obtain ⟨s1, r, a1, tb1, e1, e2, e3⟩ := hstep
    obtain ⟨s2, rs, a2, tb2, f1, f2, f3⟩ := ih s1 a1 tb1 e3 (hv.2 s1 r e1)
      (fun pre g m post he rs a' hr => hc (op :: pre) g m post (by rw [he]; rfl) (r :: rs) a' (.cons e2 hr))
    exact ⟨s2, r :: rs, a2, tb2, by simp [Sys.run, e1, f1], .cons e2 f2, f3⟩

theorem noCopy_copied {ops : List Ext.Op} (hn : NoCopy ops) {a a' : AState} {rs : List Res} (h : ARun a ops rs a')
    (ha : ∀ g, ¬ a.copied g) : ∀ g, ¬ a'.copied g := by
  induction h with
  | nil => exact ha
  | cons hs _ ih =>
    refine ih (fun op ho => hn op (by simp [ho])) ?_
    have hne := hn _ (List.mem_cons_self ..)
    cases hs with
    | copy h => exact absurd rfl (hne _ _ _ _)
    | copyFail h => exact absurd rfl (hne _ _ _ _)
    | free =>
      intro g
      simp only [update_apply]
      split
      · exact id
      · exact ha g
    | attachTwice _ => exact ha
    | attachFail _ => exact ha
    | attach _ => exact ha
    | removeUnknown _ => exact ha
    | remove _ => exact ha

theorem noCopy_noRemove {ops : List Ext.Op} (hn : NoCopy ops) : NoRemoveFromCopy ops := by
  intro pre g m post he rs a hr
  refine noCopy_copied (fun op ho => hn op ?_) hr (fun _ => id) g
  rw [he]; simp [ho]

/-- C47: after any sequence of attaching, removing and freeing extensions, on any number of graphs and whichever allocations
fail, all codes are as intended and gp_FindExtension finds exactly the extensions that are present, with their own contexts. -/
theorem extension_registry {ops : List Ext.Op} (hv : Sys.ValidRun {} ops) (hn : NoCopy ops) :
    ∃ s rs a, Sys.run {} ops = some (s, rs) ∧ ARun {} ops rs a ∧
      ∀ g m, s.find g (s.ids m) = contextOf (a.exts g) m := by
  obtain ⟨s, rs, a, tb, h1, h2, h3⟩ := run_ok ops {} {} _ WInv.init hv (noCopy_noRemove hn)
  exact ⟨s, rs, a, h1, h2, h3.find⟩

/-- C48: after any such sequence, a call through any entry of the function table of any graph runs the overloads of the extensions
present, latest first, and then the core function. -/
theorem overload_chains {ops : List Ext.Op} (hv : Sys.ValidRun {} ops) (hn : NoCopy ops) :
    ∃ s rs a, Sys.run {} ops = some (s, rs) ∧ ARun {} ops rs a ∧
      ∀ g k, k < numFunctions → s.calls g k = some (chainOf (a.exts g) k) := by
  obtain ⟨s, rs, a, tb, h1, h2, h3⟩ := run_ok ops {} {} _ WInv.init hv (noCopy_noRemove hn)
  exact ⟨s, rs, a, h1, h2, fun g k _ => h3.calls g k⟩

/-- C49, the part that holds: with copying too, all graphs have the intended extensions and call chains (so that attaching to one graph, freeing
one graph or removing from the source leaves the other graph alone), as long as nothing is removed from a graph
whose extensions are copies. Missing: such removals, see `copy_removal_false` and `copy_removal_after_free_false`. -/
theorem copied_extensions_partial {ops : List Ext.Op} (hv : Sys.ValidRun {} ops) (hn : NoRemoveFromCopy ops) :
    ∃ s rs a, Sys.run {} ops = some (s, rs) ∧ ARun {} ops rs a ∧
      (∀ g m, s.find g (s.ids m) = contextOf (a.exts g) m) ∧
      ∀ g k, k < numFunctions → s.calls g k = some (chainOf (a.exts g) k) := by
  obtain ⟨s, rs, a, tb, h1, h2, h3⟩ := run_ok ops {} {} _ WInv.init hv hn
  exact ⟨s, rs, a, h1, h2, h3.find, fun g k _ => h3.calls g k⟩

/-- Decides whether an operation is valid. -/
def opValidB (s : Sys) : Ext.Op → Bool
  | .attach _ _ c S _ => (s.heap c).isNone && S.all (fun k => decide (k < numFunctions))
  | .remove _ _ => true
  | .free _ => true
  | .copy d src l _ => decide (d ≠ src) && decide l.Nodup && l.all (fun c => (s.heap c).isNone) &&
      decide (l.length = (s.graphs src).exts.length)

/-- Decides whether all operations are valid. -/
def extValidB (s : Sys) : List Ext.Op → Bool
  | [] => true
  | op :: ops => opValidB s op && ((s.step op).elim true fun p => extValidB p.1 ops)

theorem extValidB_sound : ∀ (ops : List Ext.Op) (s : Sys), extValidB s ops = true → s.ValidRun ops := by
  intro ops
  induction ops with
  | nil => intro s _; trivial
  | cons op ops ih =>
    intro s h
    rw [extValidB, Bool.and_eq_true] at h
    refine ⟨?_, fun s' r e => ih s' ?_⟩
    · cases op with
      | attach g m c S ok =>
        have h := h.1
        simp only [opValidB, Bool.and_eq_true, Option.isNone_iff_eq_none, List.all_eq_true, decide_eq_true_eq] at h
        exact h
      | remove g m => trivial
      | free g => trivial
      | copy d src l fail =>
        have h := h.1
        simp only [opValidB, Bool.and_eq_true, Option.isNone_iff_eq_none, List.all_eq_true, decide_eq_true_eq] at h
        exact ⟨h.1.1.1, h.1.1.2, h.1.2, h.2⟩
    · have h := h.2
      rw [e] at h
      exact h

/-- Modules 7 and 8 overload entry 3 of graph 0, whose extensions are then copied to graph 1. -/
def copyHistory : List Ext.Op :=
  [.attach 0 7 10 [3, 5] true, .attach 0 8 11 [3] true, .copy 1 0 [20, 21] none]

theorem copyHistory_valid : Sys.ValidRun {} copyHistory := extValidB_sound _ _ (by decide +kernel)

/-- C49 is false: removing an extension from the copy changes what a call on the source runs. -/
theorem copy_removal_false : ¬ ∀ (ops : List Ext.Op) (s s' : Sys) (rs : List Res) (r : Res) (d src m k : Nat), Sys.ValidRun {} ops →
    Sys.run {} ops = some (s, rs) → d ≠ src → s.step (.remove d m) = some (s', r) → s'.calls src k = s.calls src k := by
  intro hall
  have hd : ((Sys.run {} copyHistory).bind fun p => (p.1.step (.remove 1 7)).map fun q => (p.1.calls 0 3, q.1.calls 0 3)) =
      some (some [.over 8 3, .over 7 3, .core 3], some [.over 8 3, .core 3]) := by decide +kernel
  rcases h1 : Sys.run {} copyHistory with _ | ⟨s, rs⟩
  · rw [h1] at hd; cases hd
  · rw [h1, Option.bind_some] at hd
    rcases h2 : s.step (.remove 1 7) with _ | ⟨s', r⟩
    · rw [h2] at hd; cases hd
    · rw [h2, Option.map_some, Option.some.injEq, Prod.mk.injEq] at hd
      have := hall copyHistory s s' rs r 1 0 7 3 copyHistory_valid h1 (by decide) h2
      rw [hd.1, hd.2] at this
      simp at this

/-- C49 is false: after freeing the source, removing an extension from the copy uses freed memory. -/
theorem copy_removal_after_free_false : ¬ ∀ (ops : List Ext.Op), Sys.ValidRun {} ops → Sys.run {} ops ≠ none := by
  intro hall
  refine hall (copyHistory ++ [.free 0, .remove 1 7]) (extValidB_sound _ _ (by decide +kernel)) ?_
  have : (Sys.run {} (copyHistory ++ [.free 0, .remove 1 7])).isNone = true := by decide +kernel
  simpa using this

/-- A history for C47 and C48 with two graphs, removal out of order, a repeated attachment and failing allocations. -/
def extSample : List Ext.Op :=
  [.remove 0 7, .attach 0 7 10 [3, 5] true, .attach 1 9 12 [3] false, .attach 0 8 11 [3] true, .attach 0 9 12 [3, 4] true,
    .attach 0 8 13 [3] true, .attach 1 9 13 [3] true, .remove 0 8, .remove 0 8, .free 1, .attach 1 8 11 [23] true]

example : Sys.ValidRun {} extSample ∧ NoCopy extSample :=
  ⟨extValidB_sound _ _ (by decide +kernel), by simp [NoCopy, extSample]⟩

example : (Sys.run {} extSample).map (fun p => (p.2, p.1.calls 0 3, p.1.calls 0 4)) =
    some ([.notok, .ok, .notok, .ok, .ok, .notok, .ok, .ok, .ok, .ok, .ok],
      some [.over 9 3, .over 7 3, .core 3], some [.over 9 4, .core 4]) := by decide +kernel

example : (Sys.run {} extSample).map (fun p => (p.1.calls 1 23, p.1.find 0 (p.1.ids 8), p.1.find 0 (p.1.ids 7))) =
    some (some [.over 8 23, .core 23], none, some 10) := by decide +kernel

/-- A history for C49: attach to the copy, remove from the source, free the source. -/
example : Sys.ValidRun {} (copyHistory ++ [.attach 1 9 30 [3] true, .remove 0 7, .free 0]) ∧
    NoRemoveFromCopy (copyHistory ++ [.attach 1 9 30 [3] true, .remove 0 7, .free 0]) := by
  refine ⟨extValidB_sound _ _ (by decide +kernel), ?_⟩
  intro pre g m post he rs a hr
  have hg : g = 0 := by
    have hm : Ext.Op.remove g m ∈ copyHistory ++ [.attach 1 9 30 [3] true, .remove 0 7, .free 0] := by rw [he]; simp
    simp [copyHistory] at hm
    exact hm.1
  subst hg
  have hall : ∀ op ∈ pre, ∀ src l f, op ≠ .copy 0 src l f := by
    intro op ho src l f e
    have hm : op ∈ copyHistory ++ [.attach 1 9 30 [3] true, .remove 0 7, .free 0] := by rw [he]; simp [ho]
    rw [e] at hm
    simp [copyHistory] at hm
  have key : ∀ (ops : List Ext.Op) (b b' : AState) rs, ARun b ops rs b' → (∀ op ∈ ops, ∀ src l f, op ≠ .copy 0 src l f) →
      ¬ b.copied 0 → ¬ b'.copied 0 := by
    intro ops b b' rs h
    induction h with
    | nil => exact fun _ h => h
    | cons hs _ ih =>
      intro hc h0
      refine ih (fun op ho => hc op (by simp [ho])) ?_
      have hne := hc _ (List.mem_cons_self ..)
      cases hs with
      | @copy d src l f h =>
        by_cases hd : d = 0
        · subst hd; exact absurd rfl (hne _ _ _)
        · simpa [update_of_ne (Ne.symm hd)] using h0
      | @copyFail d src l i h =>
        by_cases hd : d = 0
        · subst hd; exact absurd rfl (hne _ _ _)
        · simpa [update_of_ne (Ne.symm hd)] using h0
      | @free g' =>
        by_cases hd : g' = 0
        · subst hd; simp
        · simpa [update_of_ne (Ne.symm hd)] using h0
      | attachTwice _ => exact h0
      | attachFail _ => exact h0
      | attach _ => exact h0
      | removeUnknown _ => exact h0
      | remove _ => exact h0
  exact key pre _ _ _ hr hall (fun h => h)

end Verif.Props
