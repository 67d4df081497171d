import Verif.Draw.Model
import Verif.Util.ListCollLemmas
import Verif.DFS.Low

/-
The order of the vertices: insertion into a list collection.
-/
namespace Verif
namespace Draw
open Graph Props LC

/-- Positions after an insertion. -/
theorem ins_idx {A B : List Nat} {w : Nat} (hw : w ∉ A ++ B) (hnd : (A ++ B).Nodup) :
    (A ++ w :: B).idxOf w = A.length ∧ ∀ y ∈ A ++ B, (A ++ w :: B).idxOf y =
      if (A ++ B).idxOf y < A.length then (A ++ B).idxOf y else (A ++ B).idxOf y + 1 := by
  simp only [List.mem_append, not_or] at hw
  refine ⟨?_, fun y hy => ?_⟩
  · rw [List.idxOf_append_of_notMem hw.1, List.idxOf_cons_self]
    omega
  · by_cases hA : y ∈ A
    · rw [List.idxOf_append_of_mem hA, List.idxOf_append_of_mem hA, if_pos (List.idxOf_lt_length_of_mem hA)]
    · have hB : y ∈ B := (List.mem_append.1 hy).resolve_left hA
      have hne : w ≠ y := fun h => hw.2 (h ▸ hB)
      rw [List.idxOf_append_of_notMem hA, List.idxOf_append_of_notMem hA, List.idxOf_cons_ne _ hne, if_neg (by omega)]
      omega

/-- `L'` is `L` with `w` put in at `k`. -/
structure Ins (L L' : List Nat) (w k : Nat) : Prop where
  nodup : L'.Nodup
  mem : ∀ x, x ∈ L' ↔ x ∈ L ∨ x = w
  at_ : L'.idxOf w = k
  old : ∀ y ∈ L, L'.idxOf y = if L.idxOf y < k then L.idxOf y else L.idxOf y + 1

theorem Ins.mk' {A B : List Nat} {w : Nat} (hw : w ∉ A ++ B) (hnd : (A ++ B).Nodup) : Ins (A ++ B) (A ++ w :: B) w A.length := by
  obtain ⟨h1, h2⟩ := ins_idx hw hnd
  refine ⟨?_, fun x => ?_, h1, h2⟩
  · rw [List.nodup_middle]
    exact List.nodup_cons.2 ⟨hw, hnd⟩
  · simp only [List.mem_append, List.mem_cons]
    tauto

/-- `LCInsertAfter`. -/
theorem insertAfter_ins {o : Coll} {L : List Nat} {p w : Nat} (hr : Ring o L) (hnd : L.Nodup) (hp : p ∈ L) (hw : w ∉ L)
    (hb : ∀ y ∈ L, y < o.N) (hwb : w < o.N) :
    ∃ o' L', LC.insertAfter o p w = some o' ∧ o'.N = o.N ∧ Ring o' L' ∧ L'.head? = L.head? ∧ Ins L L' w (L.idxOf p + 1) := by
  obtain ⟨A, B, rfl⟩ := List.mem_iff_append.1 hp
  have hA : p ∉ A := fun hm => (List.nodup_append.1 hnd).2.2 p hm p (by simp) rfl
  have hr' : Ring o (p :: (B ++ A)) := by
    have := (ring_rotate A (p :: B)).1 hr
    rwa [List.cons_append] at this
  have hmem : ∀ y, y ∈ p :: (B ++ A) ↔ y ∈ A ++ p :: B := by intro y; simp only [List.mem_cons, List.mem_append]; tauto
  have hnd' : (p :: (B ++ A)).Nodup := by
    have : (p :: B ++ A).Nodup := List.nodup_append_comm.1 hnd
    rwa [List.cons_append] at this
  obtain ⟨o', h1, h2, h3, -⟩ := LC.insertAfter_ok hr' hnd' (fun h => hw ((hmem w).1 h)) (fun y hy => hb y ((hmem y).1 hy)) hwb
  refine ⟨o', A ++ p :: w :: B, h1, h2, ?_, ?_, ?_⟩
  · rw [ring_rotate A (p :: w :: B)]
    simpa using h3
  · cases A <;> simp
  · have hidx : (A ++ p :: B).idxOf p = A.length := by
      rw [List.idxOf_append_of_notMem hA, List.idxOf_cons_self]
      omega
    have e1 : A ++ p :: B = (A ++ [p]) ++ B := by simp
    have e2 : A ++ p :: w :: B = (A ++ [p]) ++ w :: B := by simp
    have := Ins.mk' (A := A ++ [p]) (B := B) (w := w) (by rw [← e1]; exact hw) (by rw [← e1]; exact hnd)
    rw [hidx, e2]
    have hl : (A ++ [p]).length = A.length + 1 := by simp
    rw [hl, ← e1] at this
    exact this

/-- `LCInsertBefore`: before the first node it is an insertion at the end. -/
theorem insertBefore_ins {o : Coll} {L : List Nat} {p w : Nat} (hr : Ring o L) (hnd : L.Nodup) (hp : p ∈ L) (hw : w ∉ L)
    (hp0 : p ≠ 0) (hb : ∀ y ∈ L, y < o.N) (hwb : w < o.N) :
    ∃ o' L', LC.insertBefore o p w = some o' ∧ o'.N = o.N ∧ Ring o' L' ∧ L'.head? = L.head? ∧
      Ins L L' w (if L.head? = some p then L.length else L.idxOf p) := by
  obtain ⟨A, B, rfl⟩ := List.mem_iff_append.1 hp
  have hA : p ∉ A := fun hm => (List.nodup_append.1 hnd).2.2 p hm p (by simp) rfl
  have hr' : Ring o (p :: (B ++ A)) := by
    have := (ring_rotate A (p :: B)).1 hr
    rwa [List.cons_append] at this
  have hmem : ∀ y, y ∈ p :: (B ++ A) ↔ y ∈ A ++ p :: B := by intro y; simp only [List.mem_cons, List.mem_append]; tauto
  have hnd' : (p :: (B ++ A)).Nodup := by
    have : (p :: B ++ A).Nodup := List.nodup_append_comm.1 hnd
    rwa [List.cons_append] at this
  have hb' : ∀ y ∈ p :: (B ++ A), y < o.N := fun y hy => hb y ((hmem y).1 hy)
  obtain ⟨o', h1, h2, h3, h4, -⟩ := linkBefore_ok hr' hnd' (fun h => hw ((hmem w).1 h)) hb' hwb
  have hin : LC.insertBefore o p w = some o' := by
    unfold LC.insertBefore prepend
    rw [if_neg hp0, h1]
    simp only [Option.bind_eq_bind, Option.bind_some]
    rw [rdPrev_eq (by rw [h2]; exact hb' p (by simp))]
    rfl
  cases A with
  | nil =>
    refine ⟨o', p :: B ++ [w], hin, h2, by simpa using h3, by simp, ?_⟩
    rw [if_pos (by simp)]
    have := Ins.mk' (A := p :: B) (B := []) (w := w) (by simpa using hw) (by simpa using hnd)
    simpa using this
  | cons a A =>
    have hpa : a ≠ p := fun h => hA (by simp [h])
    refine ⟨o', (a :: A) ++ w :: p :: B, hin, h2, ?_, by simp, ?_⟩
    · have e : (a :: A) ++ w :: p :: B = ((a :: A) ++ [w]) ++ (p :: B) := by simp
      rw [e, ring_rotate]
      simpa using h3
    · have hidx : (a :: A ++ p :: B).idxOf p = (a :: A).length := by
        rw [List.idxOf_append_of_notMem hA, List.idxOf_cons_self]
        omega
      rw [if_neg (by simpa using hpa), hidx]
      exact Ins.mk' hw hnd

end Draw
end Verif
