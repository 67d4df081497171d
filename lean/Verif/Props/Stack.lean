import Verif.Util.Stack
import Verif.Memory.HeapLemmas
import Mathlib.Data.List.Basic

/-
Property theorem C44: stacks are LIFO, copies are faithful.
-/
namespace Verif.Props
open Verif.Stk

/-! ## Specification: a bounded stack of integers, top first -/

/-- What an operation does to the sequence of values (top first) and what it returns; `none` if
the operation is outside the contract: overflow, underflow, access to cells not in use. -/
def specStack (cap : Nat) (l : List Int) : Op → Option (List Int × List Int)
  | .push a => if l.length < cap then some (a :: l, []) else none
  | .push2 a b => if l.length + 1 < cap then some (b :: a :: l, []) else none
  | .pop => match l with | a :: l => some (l, [a]) | [] => none
  | .popDiscard => match l with | _ :: l => some (l, []) | [] => none
  | .pop2 => match l with | b :: a :: l => some (l, [a, b]) | _ => none
  | .pop2Discard1 => match l with | _ :: a :: l => some (l, [a]) | _ => none
  | .pop2Discard => match l with | _ :: _ :: l => some (l, []) | _ => none
  | .top => some (l, [l.headD 0])
  | .get i => if i < l.length then some (l, [l.reverse.getD i 0]) else none
  | .set i a => if i < l.length then some (l.set (l.length - 1 - i) a, []) else none
  | .clear => some ([], [])
  | .setSize n =>
    if n > cap then some (l, [0]) else if n ≤ l.length then some (l.drop (l.length - n), [1]) else none
  | .size => some (l, [(l.length : Int)])

/-- A history of abstract operations. -/
def specRun (cap : Nat) (l : List Int) : List Op → Option (List Int × List (List Int))
  | [] => some (l, [])
  | o :: os =>
    match specStack cap l o with
    | none => none
    | some (l, r) => (specRun cap l os).map fun (l, rs) => (l, r :: rs)

/-- The values of a stack, top first. -/
def content (s : Stack) : List Int := (List.range s.size).reverse.map s.S

/-! ## Proof -/

/-- Representation relation. -/
structure Rep (s : Stack) (l : List Int) : Prop where
  size : s.size = l.length
  cells : ∀ i (h : i < l.length), s.S (l.length - 1 - i) = l[i]
  fits : l.length ≤ s.cap

theorem Rep.content {s l} (h : Rep s l) : content s = l := by
  unfold Props.content
  rw [h.size]
  apply List.ext_getElem
  · simp
  · intro i h1 h2
    simp only [List.getElem_map, List.getElem_reverse, List.getElem_range, List.length_range]
    exact h.cells i h2

theorem Rep.push {s l a} (h : Rep s l) (hc : l.length < s.cap) :
    ∃ s', Stk.push s a = some s' ∧ Rep s' (a :: l) ∧ s'.cap = s.cap := by
  refine ⟨{ s with S := fun i => if i = s.size then a else s.S i, size := s.size + 1 },
    by rw [Stk.push, if_pos (by rw [h.size]; exact hc)], ⟨?_, ?_, ?_⟩, rfl⟩
  · simp [h.size]
  · intro i hi
    simp only [List.length_cons] at hi ⊢
    rcases i with _ | i
    · simp [h.size]
    · have := h.cells i (by omega)
      simp only [List.getElem_cons_succ]
      rw [if_neg (by rw [h.size]; omega), ← this]
      congr 1; omega
  · simp; omega

theorem Rep.pop {s l a} (h : Rep s (a :: l)) :
    ∃ s', Stk.pop s = some (a, s') ∧ Rep s' l ∧ s'.cap = s.cap ∧ popDiscard s = some s' := by
  have hs : s.size = l.length + 1 := by simpa using h.size
  have h0 : s.S (s.size - 1) = a := by
    have := h.cells 0 (by simp)
    simpa [hs] using this
  refine ⟨{ s with size := s.size - 1 }, by rw [Stk.pop, if_neg (by omega), h0], ⟨?_, ?_, ?_⟩, rfl,
    by rw [popDiscard, if_neg (by omega)]⟩
  · simp [hs]
  · intro i hi
    have := h.cells (i + 1) (by simp; omega)
    simp only [List.length_cons, List.getElem_cons_succ] at this
    rw [← this]
    simp only
    congr 1; omega
  · have := h.fits; simp at this; simp only; omega

theorem Rep.empty {s l} (h : Rep s l) (h0 : s.size = 0) : l = [] := by
  have := h.size; rw [h0] at this; exact List.length_eq_zero_iff.1 this.symm

/-- Every operation inside the contract gives the specified result. -/
theorem rep_step {s l} (h : Rep s l) (o : Op) {l' r} (hs : specStack s.cap l o = some (l', r)) :
    ∃ s', step s o = some (s', r) ∧ Rep s' l' ∧ s'.cap = s.cap := by
  cases o with
  | push a =>
    simp only [specStack] at hs
    split at hs
    · next hc =>
      cases hs
      obtain ⟨s', h1, h2, h3⟩ := h.push (a := a) hc
      exact ⟨s', by simp [step, h1], h2, h3⟩
    · simp at hs
  | push2 a b =>
    simp only [specStack] at hs
    split at hs
    · next hc =>
      cases hs
      obtain ⟨s1, h1, h2, h3⟩ := h.push (a := a) (by omega)
      obtain ⟨s2, h4, h5, h6⟩ := h2.push (a := b) (by simp; omega)
      exact ⟨s2, by simp [step, push2, h1, h4], h5, h6.trans h3⟩
    · simp at hs
  | pop =>
    rcases l with _ | ⟨a, l⟩
    · simp [specStack] at hs
    · simp only [specStack, Option.some.injEq, Prod.mk.injEq] at hs
      obtain ⟨rfl, rfl⟩ := hs
      obtain ⟨s', h1, h2, h3, -⟩ := h.pop
      exact ⟨s', by simp [step, h1], h2, h3⟩
  | popDiscard =>
    rcases l with _ | ⟨a, l⟩
    · simp [specStack] at hs
    · simp only [specStack, Option.some.injEq, Prod.mk.injEq] at hs
      obtain ⟨rfl, rfl⟩ := hs
      obtain ⟨s', -, h2, h3, h1⟩ := h.pop
      exact ⟨s', by simp [step, h1], h2, h3⟩
  | pop2 =>
    rcases l with _ | ⟨b, _ | ⟨a, l⟩⟩
    · simp [specStack] at hs
    · simp [specStack] at hs
    · simp only [specStack, Option.some.injEq, Prod.mk.injEq] at hs
      obtain ⟨rfl, rfl⟩ := hs
      obtain ⟨s1, h1, h2, h3, -⟩ := h.pop
      obtain ⟨s2, h4, h5, h6, -⟩ := h2.pop
      exact ⟨s2, by simp [step, pop2, h1, h4], h5, h6.trans h3⟩
  | pop2Discard1 =>
    rcases l with _ | ⟨b, _ | ⟨a, l⟩⟩
    · simp [specStack] at hs
    · simp [specStack] at hs
    · simp only [specStack, Option.some.injEq, Prod.mk.injEq] at hs
      obtain ⟨rfl, rfl⟩ := hs
      obtain ⟨s1, -, h2, h3, h1⟩ := h.pop
      obtain ⟨s2, h4, h5, h6, -⟩ := h2.pop
      exact ⟨s2, by simp [step, pop2Discard1, h1, h4], h5, h6.trans h3⟩
  | pop2Discard =>
    rcases l with _ | ⟨b, _ | ⟨a, l⟩⟩
    · simp [specStack] at hs
    · simp [specStack] at hs
    · simp only [specStack, Option.some.injEq, Prod.mk.injEq] at hs
      obtain ⟨rfl, rfl⟩ := hs
      obtain ⟨s1, -, h2, h3, h1⟩ := h.pop
      obtain ⟨s2, -, h5, h6, h4⟩ := h2.pop
      exact ⟨s2, by simp [step, pop2Discard, h1, h4], h5, h6.trans h3⟩
  | top =>
    simp only [specStack, Option.some.injEq, Prod.mk.injEq] at hs
    obtain ⟨rfl, rfl⟩ := hs
    refine ⟨s, ?_, h, rfl⟩
    rcases l with _ | ⟨a, l⟩
    · have : s.size = 0 := by simpa using h.size
      simp [step, top, this]
    · have h1 : s.size = l.length + 1 := by simpa using h.size
      have h0 := h.cells 0 (by simp)
      simp only [List.length_cons] at h0
      simp only [step, top, h1]
      simpa using h0
  | get i =>
    simp only [specStack] at hs
    split at hs
    · next hi =>
      cases hs
      have hf := h.fits
      refine ⟨s, ?_, h, rfl⟩
      have := h.cells (l.length - 1 - i) (by omega)
      rw [show l.length - 1 - (l.length - 1 - i) = i by omega] at this
      have h2 : l.reverse.getD i 0 = l[l.length - 1 - i] := by
        rw [List.getD_eq_getElem?_getD, List.getElem?_eq_getElem (by simpa using hi),
          List.getElem_reverse]
        rfl
      rw [h2, ← this]
      simp [step, Stk.get, show i < s.cap by omega]
    · simp at hs
  | set i a =>
    simp only [specStack] at hs
    split at hs
    · next hi =>
      cases hs
      have hf := h.fits
      refine ⟨{ s with S := fun j => if j = i then a else s.S j },
        by simp only [step, Stk.set, if_pos (show i < s.cap by omega)]; rfl, ⟨?_, ?_, ?_⟩, rfl⟩
      · simpa using h.size
      · intro j hj
        simp only [List.length_set] at hj ⊢
        rw [List.getElem_set]
        have := h.cells j hj
        by_cases hji : l.length - 1 - i = j
        · rw [if_pos hji, if_pos (by omega)]
        · rw [if_neg hji, if_neg (by omega), this]
      · simpa using hf
    · simp at hs
  | clear =>
    simp only [specStack, Option.some.injEq, Prod.mk.injEq] at hs
    obtain ⟨rfl, rfl⟩ := hs
    exact ⟨Stk.clear s, rfl, ⟨rfl, by simp, by simp⟩, rfl⟩
  | setSize n =>
    simp only [specStack] at hs
    split at hs
    · next hn =>
      cases hs
      exact ⟨s, by simp [step, setSize, hn], h, rfl⟩
    · next hn =>
      split at hs
      · next hl =>
        cases hs
        refine ⟨{ s with size := n }, by simp [step, setSize, hn], ⟨?_, ?_, ?_⟩, rfl⟩
        · simp; omega
        · intro i hi
          simp only [List.length_drop] at hi ⊢
          rw [List.getElem_drop]
          rw [← h.cells (l.length - n + i) (by omega)]
          congr 1; omega
        · have := h.fits; simp; omega
      · simp at hs
  | size =>
    simp only [specStack, Option.some.injEq, Prod.mk.injEq] at hs
    obtain ⟨rfl, rfl⟩ := hs
    exact ⟨s, by simp [step, h.size], h, rfl⟩

theorem rep_run (os : List Op) : ∀ {s l}, Rep s l → ∀ {l' rs}, specRun s.cap l os = some (l', rs) →
    ∃ s', run s os = some (s', rs) ∧ Rep s' l' ∧ s'.cap = s.cap := by
  induction os with
  | nil => intro s l h l' rs hs; cases hs; exact ⟨s, rfl, h, rfl⟩
  | cons o os ih =>
    intro s l h l' rs hs
    simp only [specRun] at hs
    split at hs
    · simp at hs
    · next l1 r1 h1 =>
      obtain ⟨s1, e1, hr1, hc1⟩ := rep_step h o h1
      rw [Option.map_eq_some_iff] at hs
      obtain ⟨⟨l2, r2⟩, h2, h3⟩ := hs
      simp only [Prod.mk.injEq] at h3
      obtain ⟨rfl, rfl⟩ := h3
      obtain ⟨s2, e2, hr2, hc2⟩ := ih hr1 (by rw [hc1]; exact h2)
      exact ⟨s2, by simp [run, e1, e2], hr2, hc2.trans hc1⟩

/-! ## C44 -/

/-- **C44 (refinement).** Any history of operations within the contract, started on a new stack of
any capacity (with arbitrary memory content), returns exactly what the abstract bounded stack
returns and ends with exactly its content. -/
theorem C44_history (junk : Nat → Int) (cap : Nat) (os : List Op) {l rs}
    (h : specRun cap [] os = some (l, rs)) :
    ∃ s, run (new junk cap) os = some (s, rs) ∧ content s = l ∧ s.cap = cap := by
  obtain ⟨s, h1, h2, h3⟩ := rep_run os (s := new junk cap) (l := [])
    ⟨rfl, by simp, by simp⟩ h
  exact ⟨s, h1, h2.content, h3⟩

/-- **C44 (LIFO).** Values pushed after any such history come back in reverse order, and the
content beneath is as before. -/
theorem C44_lifo (junk : Nat → Int) (cap : Nat) (os : List Op) {l rs}
    (h : specRun cap [] os = some (l, rs)) (xs : List Int) (hc : l.length + xs.length ≤ cap) :
    ∃ s, run (new junk cap) (os ++ xs.map Op.push ++ xs.map fun _ => Op.pop) =
        some (s, rs ++ xs.map (fun _ => []) ++ xs.reverse.map fun x => [x]) ∧ content s = l := by
  have hpush : ∀ (xs l : List Int), l.length + xs.length ≤ cap →
      ∀ os' l' rs', specRun cap (xs.reverse ++ l) os' = some (l', rs') →
      specRun cap l (xs.map Op.push ++ os') = some (l', xs.map (fun _ => []) ++ rs') := by
    intro xs
    induction xs with
    | nil => intro l _ os' l' rs' h; simpa using h
    | cons x xs ih =>
      intro l hl os' l' rs' h
      simp only [List.length_cons] at hl
      have := ih (x :: l) (by simp; omega) os' l' rs' (by simpa using h)
      simp [specRun, specStack, show l.length < cap by omega, this]
  have hpop : ∀ (ys l : List Int), specRun cap (ys ++ l) (ys.map fun _ => Op.pop) =
      some (l, ys.map fun x => [x]) := by
    intro ys
    induction ys with
    | nil => intro l; rfl
    | cons y ys ih => intro l; simp only [List.map_cons, List.cons_append, specRun, specStack, ih]; rfl
  have happ : ∀ (os : List Op) (l0 : List Int) l rs, specRun cap l0 os = some (l, rs) →
      ∀ os' l' rs', specRun cap l os' = some (l', rs') →
      specRun cap l0 (os ++ os') = some (l', rs ++ rs') := by
    intro os
    induction os with
    | nil => intro l0 l rs h os' l' rs' h'; cases h; exact h'
    | cons o os ih =>
      intro l0 l rs h os' l' rs' h'
      simp only [specRun] at h
      split at h
      · simp at h
      · next l1 r1 h1 =>
        rw [Option.map_eq_some_iff] at h
        obtain ⟨⟨l2, r2⟩, h2, h3⟩ := h
        simp only [Prod.mk.injEq] at h3
        obtain ⟨rfl, rfl⟩ := h3
        simp [specRun, h1, ih _ _ _ h2 _ _ _ h']
  have h1 := hpop xs.reverse l
  rw [show (xs.reverse.map fun _ => Op.pop) = xs.map fun _ => Op.pop by simp] at h1
  have h2 := happ os [] l rs h _ _ _ (hpush xs l hc _ _ _ h1)
  obtain ⟨s, h3, h4, -⟩ := C44_history junk cap _ h2
  exact ⟨s, by simpa using h3, h4⟩

example : specRun 5 [] [.push 3, .push2 4 5, .pop, .set 0 9, .get 1, .setSize 1, .top, .push 7] =
    some ([7, 9], [[], [], [5], [], [4], [1], [9], []]) := by decide

/-- **C44 (copies).** sp_Copy, sp_CopyContent (when it returns OK) and sp_Duplicate give a stack
with exactly the source's content, whatever the capacities and the old content; sp_CopyContent
returns NOTOK, changing nothing, exactly if the content does not fit. -/
theorem C44_copies (junk : Nat → Int) {d s : Stack} (hs : s.size ≤ s.cap) :
    content (copy junk d s) = content s ∧ (copy junk d s).size ≤ (copy junk d s).cap ∧
    content (duplicate junk s) = content s ∧ (duplicate junk s).cap = s.cap ∧
    ((copyContent d s).2 = true → content (copyContent d s).1 = content s ∧
      (copyContent d s).1.cap = d.cap) ∧
    ((copyContent d s).2 = false ↔ d.cap < s.size) ∧
    ((copyContent d s).2 = false → (copyContent d s).1 = d) := by
  have hm : ∀ (f : Nat → Int) (n c : Nat), content ⟨memcpy f s.S s.size, s.size, c⟩ = content s := by
    intro f n c
    simp only [content]
    apply List.map_congr_left
    intro i hi
    simp only [List.mem_reverse, List.mem_range] at hi
    simp [memcpy, hi]
  have he : ∀ (f : Nat → Int) (c : Nat), s.size = 0 → content ⟨f, s.size, c⟩ = content s := by
    intro f c h0; simp [content, h0]
  have hcc : (copyContent d s).2 = true → content (copyContent d s).1 = content s ∧
      (copyContent d s).1.cap = d.cap := by
    unfold copyContent
    split
    · simp
    · intro _
      refine ⟨?_, rfl⟩
      simp only
      split
      · exact hm _ s.size _
      · exact he _ _ (by omega)
  have hdup : content (duplicate junk s) = content s ∧ (duplicate junk s).cap = s.cap := by
    unfold duplicate new
    simp only
    split
    · exact ⟨hm _ s.size _, rfl⟩
    · next h0 =>
      refine ⟨?_, rfl⟩
      have := he junk s.cap (by omega)
      rw [show s.size = 0 by omega] at this
      exact this
  refine ⟨?_, ?_, hdup.1, hdup.2, hcc, ?_, ?_⟩
  · unfold copy
    split
    · next d' h => have := hcc (by rw [h]); rw [h] at this; exact this.1
    · have h1 := hdup.1
      unfold duplicate new at h1 ⊢
      simp only at h1 ⊢
      split
      · exact hm _ s.size _
      · next h0 => exact he _ _ (by omega)
  · unfold copy
    split
    · next d' h =>
      unfold copyContent at h
      split at h
      · simp at h
      · cases h; simp only; omega
    · exact hs
  · unfold copyContent
    split <;> simp [*]
  · unfold copyContent
    split
    · simp
    · simp

/-- **C44 (checked functions).** In the build without SPEED_MACROS the functions do what the
macros do whenever those are defined, and return NOTOK exactly where the macros would be
undefined. -/
theorem C44_checked (s : Stack) (a b : Int) :
    pushChecked s a = push s a ∧ push2Checked s a b = push2 s a b ∧ popChecked s = pop s ∧
    pop2Checked s = pop2 s := by
  refine ⟨?_, ?_, ?_, ?_⟩
  · unfold pushChecked push; split <;> split <;> first | rfl | omega
  · unfold push2Checked push2 push
    by_cases h : s.size < s.cap
    · by_cases h2 : s.size + 1 < s.cap
      · simp [h, h2, show ¬ s.cap ≤ s.size + 1 by omega]
      · simp [h, h2, show s.cap ≤ s.size + 1 by omega]
    · simp [h, show s.cap ≤ s.size + 1 by omega]
  · unfold popChecked pop; split <;> split <;> first | rfl | omega
  · unfold pop2Checked pop2 pop
    rcases hs : s.size with _ | _ | n
    · simp
    · simp
    · simp

/-- **C44 (memory of sp_Copy).** Under every fault pattern sp_Copy frees no dead block and leaks
nothing: afterwards the destination record (the same one) and its array, the source's two blocks
and all other blocks are live, each owned once. -/
theorem C44_copy_memory (f : Memory.Faults) {h : Memory.Heap} {dr da sr sa : Nat} {base : List Nat}
    (hk : Memory.Ok h (da :: dr :: sa :: sr :: base)) (fits : Bool) :
    ∃ h' da' r, Memory.stackCopy f h (dr, da) fits = some (h', (dr, da'), r) ∧
      Memory.Ok h' (da' :: dr :: sa :: sr :: base) ∧ (fits = true → r = .ok ∧ h' = h) := by
  cases fits with
  | true => exact ⟨h, da, .ok, rfl, hk, fun _ => ⟨rfl, rfl⟩⟩
  | false =>
    obtain ⟨p, h1, e1, hk1, -⟩ := hk.newPair f .stkRec .stkArr
    rcases p with _ | ⟨r, a⟩
    · exact ⟨h1, da, .notok, by simp [Memory.stackCopy, e1], hk1, by simp⟩
    · obtain ⟨h2, e2, hk2, -⟩ := Memory.Ok.freePair (h := h1) (p := some (r, da)) (A := [a])
        (B := dr :: sa :: sr :: base) (hk1.of_perm (by
          simp only [Memory.pairList, List.cons_append, List.nil_append]
          exact (List.Perm.swap _ _ _).cons _))
      exact ⟨h2, a, .ok, by simp [Memory.stackCopy, e1, e2], hk2, by simp⟩

example : Memory.Ok ⟨[4, 3, 2, 1, 0], 5, 9⟩ [4, 3, 2, 1, 0] :=
  ⟨.refl _, by decide, by decide⟩

end Verif.Props
