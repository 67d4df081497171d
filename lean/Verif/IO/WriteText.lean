import Verif.IO.ReadText
import Verif.Spec.Text

/-
The text written by `_WriteAdjList`.
-/
namespace Verif.Text
open Verif Verif.Graph Verif.SB Verif.Props Function

/-- The arc is written in the list of its vertex. -/
def written (g : Graph) (e : Nat) : Bool := (g.E e).flags &&& 96 ≠ 32

/-- The lists read in a walk. -/
def rotOf (g : Graph) (w : Nat) : List Nat := (g.walk false w).getD []

/-- The neighbours written for a vertex, in the order of the text. -/
def outOf (g : Graph) (w : Nat) : List Nat := ((rotOf g w).reverse.filter (written g)).map fun e => (g.E e).nbr

theorem getNbr_some {g : Graph} {e u : Nat} (h : g.getNbr e = some u) : e < g.eSize ∧ (g.E e).nbr = u := by
  unfold getNbr rdE at h
  by_cases he : e < g.eSize
  · simp [he] at h; exact ⟨he, h⟩
  · simp [he] at h

theorem getDirection_eq {g : Graph} {e : Nat} (h : e < g.eSize) : g.getDirection e = some ((g.E e).flags &&& 96) := by
  simp [getDirection, rdE, h, DIRMASK]

/-- The lists of a simple graph, in terms of the arrays. -/
structure Lists (g : Graph) : Prop where
  fwd : ∀ w, 1 ≤ w → w ≤ g.N → g.walk false w = some (rotOf g w)
  bwd : ∀ w, 1 ≤ w → w ≤ g.N → g.walk true w = some (rotOf g w).reverse
  lt : ∀ w, 1 ≤ w → w ≤ g.N → ∀ e ∈ rotOf g w, e < g.eSize
  range : ∀ w, 1 ≤ w → w ≤ g.N → ∀ e ∈ rotOf g w, 1 ≤ (g.E e).nbr ∧ (g.E e).nbr ≤ g.N ∧ (g.E e).nbr ≠ w
  twins : ∀ w, 1 ≤ w → w ≤ g.N → ∀ e ∈ rotOf g w, twin e ∈ rotOf g (g.E e).nbr ∧ (g.E (twin e)).nbr = w
  nodup : ∀ w, 1 ≤ w → w ≤ g.N → ((rotOf g w).map fun e => (g.E e).nbr).Nodup

theorem mapM_some {α β : Type} {f : α → Option β} {k : α → β} : ∀ {l : List α}, (∀ a ∈ l, f a = some (k a)) →
    l.mapM f = some (l.map k) := by
  intro l
  induction l with
  | nil => intro _; rfl
  | cons a l ih =>
    intro h
    rw [List.mapM_cons, h a (by simp), ih fun b hb => h b (by simp [hb])]
    rfl

theorem SimpleLists.lists {g : Graph} (h : SimpleLists g) : Lists g := by
  have hrot : ∀ w, 1 ≤ w → w ≤ g.N → ∃ L, rotOf g w = L ∧ g.walk false w = some L ∧ g.walk true w = some L.reverse ∧
      (∃ l, neighbors g w = some l ∧ l.Nodup) ∧
      ∀ e ∈ L, ∃ u, g.getNbr e = some u ∧ 1 ≤ u ∧ u ≤ g.N ∧ u ≠ w ∧ g.getNbr (twin e) = some w ∧
        ∃ L', g.walk false u = some L' ∧ twin e ∈ L' := by
    intro w h1 h2
    obtain ⟨L, hL, rest⟩ := h w h1 h2
    exact ⟨L, by simp [rotOf, hL], hL, rest⟩
  have hlt : ∀ w, 1 ≤ w → w ≤ g.N → ∀ e ∈ rotOf g w, e < g.eSize := by
    intro w h1 h2 e he
    obtain ⟨L, rfl, -, -, -, hL⟩ := hrot w h1 h2
    obtain ⟨u, hu, -⟩ := hL e he
    exact (getNbr_some hu).1
  refine ⟨?_, ?_, hlt, ?_, ?_, ?_⟩
  · intro w h1 h2; obtain ⟨L, rfl, hL, -⟩ := hrot w h1 h2; exact hL
  · intro w h1 h2; obtain ⟨L, rfl, -, hL, -⟩ := hrot w h1 h2; exact hL
  · intro w h1 h2 e he
    obtain ⟨L, rfl, -, -, -, hL⟩ := hrot w h1 h2
    obtain ⟨u, hu, r1, r2, r3, -⟩ := hL e he
    rw [(getNbr_some hu).2]
    exact ⟨r1, r2, r3⟩
  · intro w h1 h2 e he
    obtain ⟨L, rfl, -, -, -, hL⟩ := hrot w h1 h2
    obtain ⟨u, hu, -, -, -, ht, L', hL', hm⟩ := hL e he
    rw [(getNbr_some hu).2]
    refine ⟨?_, (getNbr_some ht).2⟩
    simp only [rotOf, hL', Option.getD_some]
    exact hm
  · intro w h1 h2
    obtain ⟨L, rfl, hw, -, ⟨l, hl, hnd⟩, -⟩ := hrot w h1 h2
    unfold neighbors at hl
    rw [hw, Option.bind_eq_bind, Option.bind_some, mapM_some (k := fun e => (g.E e).nbr)
      (fun e he => getNbr_eq (hlt w h1 h2 e he))] at hl
    rw [Option.some.inj hl]; exact hnd

theorem Lists.neighbors {g : Graph} (h : Lists g) {w : Nat} (h1 : 1 ≤ w) (h2 : w ≤ g.N) :
    Props.neighbors g w = some ((rotOf g w).map fun e => (g.E e).nbr) := by
  unfold Props.neighbors
  rw [h.fwd w h1 h2, Option.bind_eq_bind, Option.bind_some]
  exact mapM_some fun e he => getNbr_eq (h.lt w h1 h2 e he)

theorem Lists.entries {g : Graph} (h : Lists g) {w : Nat} (h1 : 1 ≤ w) (h2 : w ≤ g.N) :
    Props.entries g w = some ((rotOf g w).map fun e => ((g.E e).nbr, (g.E e).flags &&& 96)) := by
  unfold Props.entries
  rw [h.fwd w h1 h2, Option.bind_eq_bind, Option.bind_some]
  refine mapM_some fun e he => ?_
  rw [getNbr_eq (h.lt w h1 h2 e he), getDirection_eq (h.lt w h1 h2 e he)]
  rfl

theorem Lists.proper {g : Graph} (h : Lists g) : Proper (outOf g) g.N := by
  constructor
  · intro w h1 h2 u hu
    unfold outOf at hu
    obtain ⟨e, he, rfl⟩ := List.mem_map.1 hu
    simp only [List.mem_filter, List.mem_reverse] at he
    exact h.range w h1 h2 e he.1
  · intro w h1 h2
    unfold outOf
    have := h.nodup w h1 h2
    rw [List.filter_reverse, List.map_reverse, List.nodup_reverse]
    exact this.sublist ((List.filter_sublist).map _)

theorem neighborText_eq {g : Graph} : ∀ {l : List Nat}, (∀ e ∈ l, e < g.eSize) →
    neighborText g l = some (((l.filter (written g)).map fun e => (g.E e).nbr).flatMap fun u => 32 :: shown g u) := by
  intro l
  induction l with
  | nil => intro _; rfl
  | cons e l ih =>
    intro h
    have he := h e (by simp)
    unfold neighborText
    rw [getDirection_eq he, getNbr_eq he, ih fun a ha => h a (by simp [ha])]
    simp only [Option.bind_eq_bind, Option.bind_some]
    by_cases hw : (g.E e).flags &&& 96 = 32
    · rw [List.filter_cons_of_neg (by simp [written, hw]), if_neg (by simp [INONLY, hw])]
      rfl
    · rw [List.filter_cons_of_pos (by simp [written, hw]), if_pos (by simp [INONLY, hw])]
      rfl

theorem shown_eq (g : Graph) (v : Nat) : shown g v = decInt ((v : Int) - off (zeroBased g)) := rfl

theorem vertexText_eq {g : Graph} (h : Lists g) {w : Nat} (h1 : 1 ≤ w) (h2 : w ≤ g.N) (rest : List Nat) :
    ∃ l, vertexText g w = some l ∧
      l ++ rest = decInt ((w : Int) - off (zeroBased g)) ++ 58 :: bodyText (zeroBased g) (outOf g w) rest := by
  refine ⟨shown g w ++ [58] ++ ((outOf g w).flatMap fun u => 32 :: shown g u) ++ [32] ++
    decInt (if zeroBased g then -1 else 0) ++ [10], ?_, ?_⟩
  · unfold vertexText
    rw [h.bwd w h1 h2, Option.bind_eq_bind, Option.bind_some,
      neighborText_eq (fun e he => h.lt w h1 h2 e (by simpa using he))]
    rfl
  · have hz : (if zeroBased g = true then (-1 : Int) else 0) = 0 - off (zeroBased g) := by
      cases zeroBased g <;> rfl
    rw [hz]
    simp only [shown_eq]
    unfold bodyText
    simp only [List.append_assoc, List.cons_append, List.nil_append]

theorem lines_eq {g : Graph} (h : Lists g) : ∀ k v, 1 ≤ v → v + k ≤ g.N + 1 →
    ∃ ls, ((List.range' v k).mapM fun i => vertexText g i) = some ls ∧ ls.flatten = linesText (outOf g) (zeroBased g) k v := by
  intro k
  induction k with
  | zero => intro v _ _; exact ⟨[], rfl, rfl⟩
  | succ k ih =>
    intro v h1 h2
    obtain ⟨ls, hl, hf⟩ := ih (v + 1) (by omega) (by omega)
    obtain ⟨l, h3, h4⟩ := vertexText_eq h h1 (by omega : v ≤ g.N) ls.flatten
    refine ⟨l :: ls, ?_, ?_⟩
    · rw [List.range'_succ, List.mapM_cons, h3, hl]
      rfl
    · rw [List.flatten_cons, h4, hf]
      rfl

/-- What `_WriteAdjList` writes. -/
theorem writeAdjList_eq {g : Graph} (h : Lists g) :
    writeAdjList g = some (adjText (outOf g) (zeroBased g) g.N) := by
  obtain ⟨ls, hl, hf⟩ := lines_eq h g.N 1 (by omega) (by omega)
  have hm : ((List.range g.N).mapM fun i => vertexText g (i + 1)) = some ls := by
    rw [← hl, show List.range' 1 g.N = (List.range g.N).map (· + 1) by
      rw [List.range'_eq_map_range]; exact List.map_congr_left fun i _ => Nat.add_comm 1 i, List.mapM_map]
    rfl
  unfold writeAdjList
  rw [hm]
  simp only [Option.bind_eq_bind, Option.bind_some]
  rw [hf]
  unfold adjText
  have : decInt (g.N : Int) = dec g.N := by
    unfold decInt
    rw [if_neg (by omega)]
    simp
  rw [this]
  simp

theorem bodyText_noNul {z : Bool} {R rest : List Nat} (h : 0 ∉ rest) : 0 ∉ bodyText z R rest := by
  unfold bodyText
  simp only [List.mem_append, List.mem_flatMap, List.mem_cons, not_or, not_exists, not_and]
  exact ⟨fun u _ => ⟨by decide, decInt_noNul _⟩, by decide, decInt_noNul _, by decide, h⟩

theorem linesText_noNul (out : Nat → List Nat) (z : Bool) : ∀ k v, 0 ∉ linesText out z k v := by
  intro k
  induction k with
  | zero => intro v; simp [linesText]
  | succ k ih =>
    intro v
    unfold linesText
    simp only [List.mem_append, List.mem_cons, not_or]
    exact ⟨decInt_noNul _, by decide, bodyText_noNul (ih _)⟩

theorem adjText_noNul (out : Nat → List Nat) (z : Bool) (N : Nat) : 0 ∉ adjText out z N := by
  unfold adjText
  simp only [List.mem_append, List.mem_cons, not_or]
  exact ⟨by decide, by decide, decInt_noNul _, by decide, linesText_noNul _ _ _ _⟩

end Verif.Text
