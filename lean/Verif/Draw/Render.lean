import Verif.Draw.Check
import Verif.IO.Lex

/-
What the rendition of a drawing writes: lemmas.
-/
namespace Verif
namespace Draw
open Graph

/-- A list of writes. -/
def putL (b : Buf) (W : List (Int × Nat)) : Option Buf := W.foldlM (fun b w => put b w.1 w.2) b

/-- The last write to `i`. -/
def last (W : List (Int × Nat)) (i : Nat) : Option Nat := W.foldl (fun acc w => if w.1 = (i : Int) then some w.2 else acc) none

theorem last_foldl (W : List (Int × Nat)) (i : Nat) (a : Option Nat) :
    W.foldl (fun acc w => if w.1 = (i : Int) then some w.2 else acc) a = (last W i).or a := by
  induction W generalizing a with
  | nil => simp [last]
  | cons w W ih =>
    rw [List.foldl_cons, ih]
    have h2 : last (w :: W) i = (last W i).or (if w.1 = (i : Int) then some w.2 else none) := by
      show List.foldl _ _ (w :: W) = _
      rw [List.foldl_cons, ih]
    rw [h2]
    by_cases h : w.1 = (i : Int)
    · simp only [h, if_true]
      cases last W i <;> simp
    · simp only [h, if_false]
      cases last W i <;> simp

theorem last_append (A B : List (Int × Nat)) (i : Nat) : last (A ++ B) i = (last B i).or (last A i) := by
  show List.foldl _ none (A ++ B) = _
  rw [List.foldl_append, last_foldl]
  rfl

theorem last_cons (w : Int × Nat) (W : List (Int × Nat)) (i : Nat) :
    last (w :: W) i = (last W i).or (if w.1 = (i : Int) then some w.2 else none) := by
  show List.foldl _ _ (w :: W) = _
  rw [List.foldl_cons, last_foldl]

theorem last_none {W : List (Int × Nat)} {i : Nat} (h : ∀ w ∈ W, w.1 ≠ (i : Int)) : last W i = none := by
  induction W with
  | nil => rfl
  | cons w W ih =>
    rw [last_cons, ih (fun w hw => h w (by simp [hw])), if_neg (h w (by simp))]
    rfl

theorem last_const {W : List (Int × Nat)} {i x : Nat} (h : ∀ w ∈ W, w.1 = (i : Int) → w.2 = x)
    (hx : ∃ w ∈ W, w.1 = (i : Int)) : last W i = some x := by
  induction W with
  | nil => simp at hx
  | cons w W ih =>
    rw [last_cons]
    by_cases h1 : ∃ w ∈ W, w.1 = (i : Int)
    · rw [ih (fun w hw => h w (by simp [hw])) h1]
      rfl
    · rw [last_none (fun w hw hq => h1 ⟨w, hw, hq⟩)]
      obtain ⟨w', hw', hq⟩ := hx
      rcases List.mem_cons.1 hw' with rfl | hw'
      · rw [if_pos hq, h w' (by simp) hq]
        rfl
      · exact absurd ⟨w', hw', hq⟩ h1

theorem last_some {W : List (Int × Nat)} {i x : Nat} (h : last W i = some x) : ∃ w ∈ W, w.1 = (i : Int) ∧ w.2 = x := by
  induction W with
  | nil => simp [last] at h
  | cons w W ih =>
    rw [last_cons] at h
    cases hl : last W i with
    | some y =>
      rw [hl] at h
      obtain ⟨w', h1, h2⟩ := ih (by rw [hl]; simpa using h)
      exact ⟨w', by simp [h1], h2⟩
    | none =>
      rw [hl] at h
      by_cases hq : w.1 = (i : Int)
      · rw [if_pos hq] at h
        exact ⟨w, by simp, hq, by simpa using h⟩
      · rw [if_neg hq] at h
        simp at h

theorem putL_some : ∀ (W : List (Int × Nat)) (b : Buf), (∀ w ∈ W, 0 ≤ w.1 ∧ w.1 < b.size) →
    putL b W = some { size := b.size, at_ := fun i => (last W i).or (b.at_ i) } := by
  intro W
  induction W with
  | nil => intro b _; simp [putL, last]
  | cons w W ih =>
    intro b h
    unfold putL
    rw [List.foldlM_cons]
    have hw := h w (by simp)
    have hp : put b w.1 w.2 = some { b with at_ := Function.update b.at_ w.1.toNat (some w.2) } := if_pos hw
    rw [hp]
    simp only [Option.bind_eq_bind, Option.bind_some]
    have := ih { b with at_ := Function.update b.at_ w.1.toNat (some w.2) } (fun w' hw' => h w' (by simp [hw']))
    unfold putL at this
    rw [this]
    congr 2
    funext i
    rw [last_cons]
    dsimp only
    by_cases hq : w.1 = (i : Int)
    · have : w.1.toNat = i := by omega
      rw [this, Function.update_self, if_pos hq]
      cases last W i <;> simp
    · rw [Function.update_of_ne (by omega), if_neg hq]
      cases last W i <;> simp

theorem putL_append (A B : List (Int × Nat)) (b : Buf) : putL b (A ++ B) = (putL b A).bind fun b => putL b B := by
  unfold putL
  rw [List.foldlM_append]
  rfl

theorem putL_flatMap {f : Nat → List (Int × Nat)} {op : Buf → Nat → Option Buf} : ∀ (l : List Nat)
    (_ : ∀ x ∈ l, ∀ b, op b x = putL b (f x)) (b : Buf), l.foldlM op b = putL b (l.flatMap f) := by
  intro l
  induction l with
  | nil => intro _ b; rfl
  | cons x l ih =>
    intro h b
    rw [List.foldlM_cons, List.flatMap_cons, putL_append, h x (by simp)]
    have := ih (fun y hy => h y (by simp [hy]))
    show (putL b (f x)).bind _ = _
    congr 1
    funext b
    exact this b

/-- The writes of `clearRow`. -/
def clearW (M n : Nat) : List (Int × Nat) :=
  ((List.range M).flatMap fun m => [((((2 * n) * (M + 1) + m : Nat) : Int), 32), ((((2 * n + 1) * (M + 1) + m : Nat) : Int), 32)]) ++
    [((((2 * n) * (M + 1) + M : Nat) : Int), 10), ((((2 * n + 1) * (M + 1) + M : Nat) : Int), 10)]

theorem clearRow_eq (M : Nat) (b : Buf) (n : Nat) : clearRow M b n = putL b (clearW M n) := by
  unfold clearRow clearW
  rw [putL_append, ← putL_flatMap (op := fun b (m : Nat) => do
    let b ← put b ((2 * n) * (M + 1) + m : Nat) 32
    put b ((2 * n + 1) * (M + 1) + m : Nat) 32)]
  · simp only [Option.bind_eq_bind]
    congr 1
    funext b
    simp [putL]
  · intro m _ b
    simp [putL]

/-- The writes of `dashes`. -/
def dashW (row : Int) : Nat → Int → List (Int × Nat)
  | 0, _ => []
  | k + 1, i => (row + i, 45) :: dashW row k (i + 1)

theorem dashes_eq (row : Int) : ∀ (k : Nat) (i : Int) (b : Buf), dashes row k i b = putL b (dashW row k i) := by
  intro k
  induction k with
  | zero => intro i b; rfl
  | succ k ih =>
    intro i b
    simp only [dashes, dashW, putL, List.foldlM_cons, Option.bind_eq_bind]
    congr 1
    funext b
    exact ih _ _

theorem mem_dashW {row : Int} {w : Int × Nat} : ∀ {k : Nat} {i : Int}, w ∈ dashW row k i ↔
    ∃ j : Int, i ≤ j ∧ j < i + k ∧ w = (row + j, 45) := by
  intro k
  induction k with
  | zero => intro i; simp only [dashW, List.not_mem_nil, false_iff, not_exists, not_and]; intro j h1 h2; omega
  | succ k ih =>
    intro i
    simp only [dashW, List.mem_cons, ih]
    constructor
    · rintro (h | ⟨j, h1, h2, h3⟩)
      · exact ⟨i, by omega, by omega, h⟩
      · exact ⟨j, by omega, by omega, h3⟩
    · rintro ⟨j, h1, h2, h3⟩
      by_cases hj : j = i
      · subst hj; exact .inl h3
      · exact .inr ⟨j, by omega, by omega, h3⟩

/-- The writes of `putAll`. -/
def textW : Int → List Nat → List (Int × Nat)
  | _, [] => []
  | i, x :: l => (i, x) :: textW (i + 1) l

theorem putAll_eq : ∀ (l : List Nat) (i : Int) (b : Buf), putAll b i l = putL b (textW i l) := by
  intro l
  induction l with
  | nil => intro i b; rfl
  | cons x l ih =>
    intro i b
    simp only [putAll, textW, putL, List.foldlM_cons, Option.bind_eq_bind]
    congr 1
    funext b
    exact ih _ _

theorem mem_textW {w : Int × Nat} : ∀ {l : List Nat} {i : Int}, w ∈ textW i l ↔
    ∃ j : Nat, l[j]? = some w.2 ∧ w.1 = i + j := by
  intro l
  induction l with
  | nil => intro i; simp [textW]
  | cons x l ih =>
    intro i
    simp only [textW, List.mem_cons, ih]
    constructor
    · rintro (rfl | ⟨j, h1, h2⟩)
      · exact ⟨0, by simp, by simp⟩
      · exact ⟨j + 1, by simpa using h1, by rw [h2]; push_cast; omega⟩
    · rintro ⟨j, h1, h2⟩
      cases j with
      | zero =>
        left
        simp at h1 h2
        ext
        · exact h2
        · exact h1.symm
      | succ j => exact .inr ⟨j, by simpa using h1, by rw [h2]; push_cast; omega⟩

theorem textW_last {l : List Nat} {i : Int} {p j : Nat} {x : Nat} (hp : (p : Int) = i + j) (h : l[j]? = some x) :
    last (textW i l) p = some x := by
  refine last_const (fun w hw hq => ?_) ⟨((p : Int), x), mem_textW.2 ⟨j, h, hp⟩, rfl⟩
  obtain ⟨j', h1, h2⟩ := mem_textW.1 hw
  have : j' = j := by omega
  subst this
  rw [h] at h1
  exact (Option.some.inj h1).symm

/-- The writes of `drawLabel`. -/
def labelW (M : Nat) (d : DVert) (l : List Nat) : List (Int × Nat) :=
  if wide d l then textW (2 * d.pos * (M + 1) + (d.start + d.stop).tdiv 2) l
  else [(2 * d.pos * (M + 1) + (d.start + d.stop).tdiv 2, if l.length = 2 then l.headD 0 else 42),
    ((2 * d.pos + 1) * (M + 1) + (d.start + d.stop).tdiv 2, l.getLastD 0)]

theorem drawLabel_eq (M : Nat) (d : DVert) (l : List Nat) (b : Buf) : drawLabel M d l b = putL b (labelW M d l) := by
  unfold drawLabel labelW
  simp only
  split
  · exact putAll_eq _ _ _
  · simp [putL]

/-- The writes of `drawVertex`. -/
def vertexW (zero : Bool) (c : Ctx) (M v : Nat) : List (Int × Nat) :=
  dashW (2 * (c.VI v).pos * (M + 1)) ((c.VI v).stop - (c.VI v).start + 1).toNat (c.VI v).start ++
    labelW M (c.VI v) (label zero v)

theorem drawVertex_eq {zero : Bool} {c : Ctx} {g : Graph} {v : Nat} (hv : v ≤ g.N) (b : Buf) :
    drawVertex zero c g b v = putL b (vertexW zero c g.M v) := by
  unfold drawVertex rdDV vertexW
  rw [if_pos (by omega), putL_append]
  simp only [Option.bind_eq_bind, Option.bind_some, dashes_eq, drawLabel_eq]

/-- The writes of `bars`. -/
def barW (M : Nat) (col first : Int) : Nat → Int → List (Int × Nat)
  | 0, _ => []
  | k + 1, i => (if i > first then [(2 * i * (M + 1) + col, 124)] else []) ++
      ((2 * i + 1) * (M + 1) + col, 124) :: barW M col first k (i + 1)

theorem bars_eq (M : Nat) (col first : Int) : ∀ (k : Nat) (i : Int) (b : Buf),
    bars M col first k i b = putL b (barW M col first k i) := by
  intro k
  induction k with
  | zero => intro i b; rfl
  | succ k ih =>
    intro i b
    unfold bars barW
    rw [putL_append]
    by_cases h : i > first
    · simp only [h, if_true, Option.bind_eq_bind]
      have : putL b [(2 * i * (M + 1) + col, 124)] = put b (2 * i * (M + 1) + col) 124 := by simp [putL]
      rw [this]
      congr 1
      funext b
      simp only [putL, List.foldlM_cons, Option.bind_eq_bind]
      congr 1
      funext b
      exact ih _ _
    · simp only [h, if_false, Option.bind_eq_bind, Option.bind_some]
      have : putL b [] = some b := rfl
      rw [this]
      simp only [Option.bind_some, putL, List.foldlM_cons, Option.bind_eq_bind]
      congr 1
      funext b
      exact ih _ _

theorem mem_barW {M : Nat} {col first : Int} {w : Int × Nat} : ∀ {k : Nat} {i : Int}, w ∈ barW M col first k i ↔
    ∃ j : Int, i ≤ j ∧ j < i + k ∧ ((j > first ∧ w = (2 * j * (M + 1) + col, 124)) ∨ w = ((2 * j + 1) * (M + 1) + col, 124)) := by
  intro k
  induction k with
  | zero => intro i; simp only [barW, List.not_mem_nil, false_iff, not_exists, not_and]; intro j h1 h2; omega
  | succ k ih =>
    intro i
    simp only [barW, List.mem_append, List.mem_cons, ih]
    constructor
    · rintro (h | h | ⟨j, h1, h2, h3⟩)
      · by_cases hi : i > first
        · rw [if_pos hi] at h
          exact ⟨i, by omega, by omega, .inl ⟨hi, by simpa using h⟩⟩
        · rw [if_neg hi] at h
          simp at h
      · exact ⟨i, by omega, by omega, .inr h⟩
      · exact ⟨j, by omega, by omega, h3⟩
    · rintro ⟨j, h1, h2, h3⟩
      by_cases hj : j = i
      · subst hj
        rcases h3 with ⟨h3, h4⟩ | h3
        · left; rw [if_pos h3]; simpa using h4
        · exact .inr (.inl h3)
      · exact .inr (.inr ⟨j, by omega, by omega, h3⟩)

/-- The writes of `drawEdge`. -/
def edgeW (c : Ctx) (M e : Nat) : List (Int × Nat) :=
  barW M (c.E e).pos (c.E e).start ((c.E e).stop - (c.E e).start).toNat (c.E e).start

theorem drawEdge_eq {c : Ctx} {g : Graph} {e : Nat} (he : e < g.eSize) (b : Buf) :
    drawEdge c g b e = putL b (edgeW c g.M e) := by
  unfold drawEdge rdDE edgeW
  rw [if_pos he]
  simp only [Option.bind_eq_bind, Option.bind_some, bars_eq]

/-- All writes of `render`. -/
def allW (zero : Bool) (c : Ctx) (g : Graph) : List (Int × Nat) :=
  (List.range g.N).flatMap (clearW g.M) ++ ((verts g).flatMap (vertexW zero c g.M) ++
    ((edges g).flatMap (edgeW c g.M) ++ [(((g.M : Int) + 1) * 2 * g.N, 0)]))

theorem bind_eq {α β : Type} {x : Option α} {f g : α → Option β} (h : ∀ a, f a = g a) : x.bind f = x.bind g := by
  cases x with
  | none => rfl
  | some a => exact h a

theorem render_eq {c : Ctx} {g : Graph} (hh : g.holes = []) (hu : g.inUse ≤ g.eSize)
    (hs : (g.M + 1) * 2 * g.N + 1 < 2147483648) :
    render c g = (putL { size := (g.M + 1) * 2 * g.N + 1 } (allW (g.flags &&& 8 ≠ 0) c g)).map some := by
  unfold render allW
  rw [if_neg (by simp [hh])]
  have hck : Text.ckInt (((g.M : Int) + 1) * 2 * g.N + 1) = some (((g.M + 1) * 2 * g.N + 1 : Nat) : Int) := by
    unfold Text.ckInt
    have : ((g.M : Int) + 1) * 2 * g.N + 1 = (((g.M + 1) * 2 * g.N + 1 : Nat) : Int) := by push_cast; rfl
    rw [this, if_pos (by omega)]
  rw [hck]
  simp only [Option.bind_eq_bind, Option.bind_some, Int.toNat_natCast]
  rw [putL_append, putL_flatMap (f := clearW g.M) _ (fun n _ b => clearRow_eq g.M b n)]
  rw [Option.map_bind]
  refine bind_eq fun b => ?_
  simp only [Function.comp]
  rw [putL_append, putL_flatMap (f := vertexW _ c g.M) _ (fun v hv b => drawVertex_eq (mem_verts.1 hv).2 b), Option.map_bind]
  refine bind_eq fun b => ?_
  simp only [Function.comp]
  rw [putL_append, putL_flatMap (f := edgeW c g.M) _ (fun e he b => drawEdge_eq (by have := mem_edges.1 he; omega) b),
    Option.map_bind]
  refine bind_eq fun b => ?_
  simp only [Function.comp, putL, List.foldlM_cons, List.foldlM_nil, Option.bind_eq_bind, Option.pure_def]
  cases put b ((↑g.M + 1) * 2 * ↑g.N) 0 <;> rfl

end Draw
end Verif
