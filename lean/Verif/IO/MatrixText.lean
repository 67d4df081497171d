import Verif.IO.Matrix

/-
The text of an adjacency matrix: what `_WriteAdjMatrix` writes, and what the readers take from it.
-/
namespace Verif.Text
open Verif Verif.Graph Verif.SB Verif.Props

/-- A row with the neighbours `nb` marked. -/
def rowText (nb : List Nat) (N v : Nat) : List Nat :=
  (List.range N).map fun k => if k < v then 32 else if k + 1 ∈ nb then 49 else 48

theorem emptyRow_eq {N v : Nat} (h : v ≤ N) : emptyRow N v = rowText [] N v := by
  unfold emptyRow rowText
  apply List.ext_getElem
  · simp; omega
  · intro i h1 h2
    simp only [List.getElem_map, List.getElem_range, List.not_mem_nil, if_false]
    rw [List.getElem_append]
    split
    · next h => simp at h; simp [h]
    · next h => simp at h; simp [Nat.not_lt.2 h]

theorem rowText_set {nb : List Nat} {N v w : Nat} (h1 : v < w) :
    (rowText nb N v).set (w - 1) 49 = rowText (w :: nb) N v := by
  unfold rowText
  apply List.ext_getElem
  · simp
  · intro i _ _
    simp only [List.getElem_set, List.getElem_map, List.getElem_range, List.mem_cons]
    by_cases hi : w - 1 = i
    · subst hi
      rw [if_pos rfl, if_neg (by omega), if_pos (.inl (by omega))]
    · rw [if_neg hi]
      have : i + 1 ≠ w := by omega
      simp [this]

theorem rowText_skip {nb : List Nat} {N v w : Nat} (h1 : w ≤ v) : rowText (w :: nb) N v = rowText nb N v := by
  unfold rowText
  refine List.map_congr_left fun k _ => ?_
  by_cases hk : k < v
  · simp [hk]
  · have : k + 1 ≠ w := by omega
    simp [this]

theorem rowText_congr {nb nb' : List Nat} {N v : Nat} (h : ∀ x, x ∈ nb ↔ x ∈ nb') : rowText nb N v = rowText nb' N v := by
  unfold rowText
  refine List.map_congr_left fun k _ => ?_
  simp only [h]

theorem markArcs_eq {g : Graph} {v : Nat} : ∀ (es : List Nat) (nb : List Nat),
    (∀ e ∈ es, e < g.eSize ∧ (g.E e).flags &&& 96 ≠ 32 ∧ (g.E e).nbr ≤ g.N) →
    markArcs g v es (rowText nb g.N v) = some (some (rowText (nb ++ es.map fun e => (g.E e).nbr) g.N v))
  | [], nb, _ => by simp [markArcs]
  | e :: es, nb, h => by
    obtain ⟨h1, h2, h3⟩ := h e (by simp)
    have ih := markArcs_eq (v := v) es ((g.E e).nbr :: nb) (fun x hx => h x (by simp [hx]))
    have hcong : rowText ((g.E e).nbr :: nb ++ es.map fun e => (g.E e).nbr) g.N v =
        rowText (nb ++ (e :: es).map fun e => (g.E e).nbr) g.N v := rowText_congr fun x => by simp; tauto
    rw [hcong] at ih
    unfold markArcs
    rw [getDirection_eq h1, getNbr_eq h1]
    simp only [Option.bind_eq_bind, Option.bind_some]
    rw [if_neg (show (g.E e).flags &&& 96 ≠ INONLY from h2)]
    by_cases hw : (g.E e).nbr > v
    · rw [if_pos hw, if_pos (by omega), rowText_set hw]; exact ih
    · rw [if_neg hw, ← rowText_skip (nb := nb) (N := g.N) (v := v) (w := (g.E e).nbr) (by omega)]; exact ih

/-- The rows from `v` on, `k` of them. -/
def rowsText (nb : Nat → List Nat) (N : Nat) : Nat → Nat → List Nat
  | 0, _ => []
  | k + 1, v => rowText (nb v) N v ++ [10] ++ rowsText nb N k (v + 1)

theorem matrixRows_eq {g : Graph} (hl : Lists g) (hd : ∀ w, 1 ≤ w → w ≤ g.N → ∀ e ∈ rotOf g w, (g.E e).flags &&& 96 ≠ 32) :
    ∀ k v, 1 ≤ v → v + k = g.N + 1 → matrixRows g k v = some (rowsText (fun w => (rotOf g w).map fun e => (g.E e).nbr) g.N k v, .ok) := by
  intro k
  induction k with
  | zero => intro v _ _; rfl
  | succ k ih =>
    intro v h1 h2
    have hv : v ≤ g.N := by omega
    unfold matrixRows
    rw [hl.fwd v h1 hv, emptyRow_eq hv]
    simp only [Option.bind_eq_bind, Option.bind_some]
    rw [markArcs_eq _ [] fun e he => ⟨hl.lt v h1 hv e he, hd v h1 hv e he, (hl.range v h1 hv e he).2.1⟩]
    simp only [Option.bind_some]
    rw [ih (v + 1) (by omega) (by omega)]
    rfl

theorem writeAdjMatrix_eq {g : Graph} (hl : Lists g) (hd : ∀ w, 1 ≤ w → w ≤ g.N → ∀ e ∈ rotOf g w, (g.E e).flags &&& 96 ≠ 32) :
    writeAdjMatrix g = some (dec g.N ++ [10] ++ rowsText (fun w => (rotOf g w).map fun e => (g.E e).nbr) g.N g.N 1, .ok) := by
  unfold writeAdjMatrix
  rw [matrixRows_eq hl hd g.N 1 (le_refl _) (by omega)]
  rfl

/-! ### Reading flags -/

/-- A flag as a character. -/
def bit (b : Bool) : Nat := if b then 49 else 48

theorem bit_cases (b : Bool) : isSpace (bit b) = false ∧ isDigit (bit b) = true ∧ bit b - 48 = (if b then 1 else 0) ∧ bit b ≠ 0 := by
  cases b <;> decide

/-- A file gives the flags of a text that has, white space apart, only flags. -/
theorem file_feed : ∀ (bs : List Bool) (t r : List Nat), t.filter (!isSpace ·) = bs.map bit ++ r.filter (!isSpace ·) →
    ∃ t', Feed file t bs t' ∧ t'.filter (!isSpace ·) = r.filter (!isSpace ·)
  | [], t, r, h => ⟨t, .nil _, by simpa using h⟩
  | b :: bs, t, r, h => by
    have hd : ∃ t1, t.dropWhile isSpace = bit b :: t1 ∧ t1.filter (!isSpace ·) = bs.map bit ++ r.filter (!isSpace ·) := by
      clear file_feed
      induction t with
      | nil => simp at h
      | cons c t ih =>
        by_cases hc : isSpace c = true
        · rw [List.filter_cons_of_neg (by simp [hc])] at h
          obtain ⟨t1, h1, h2⟩ := ih h
          exact ⟨t1, by simp [hc, h1], h2⟩
        · rw [List.filter_cons_of_pos (by simp [hc])] at h
          simp only [List.map_cons, List.cons_append, List.cons.injEq] at h
          refine ⟨t, ?_, h.2⟩
          rw [List.dropWhile_cons_of_neg hc, h.1]
    obtain ⟨t1, h1, h2⟩ := hd
    obtain ⟨t', h3, h4⟩ := file_feed bs t1 r h2
    refine ⟨t', .cons ?_ h3, h4⟩
    have hb := bit_cases b
    show some (scanDigit t) = _
    unfold scanDigit
    rw [h1]
    simp only [hb.2.1, if_true, hb.2.2.1]
    cases b <;> rfl

/-- Text with flags that are separated by white space. -/
inductive Spaced : List Nat → List Bool → Prop
  | nil (p) : (∀ c ∈ p, isSpace c = true) → Spaced p []
  | cons {p r b bs} : (∀ c ∈ p, isSpace c = true) → isDigit (r.headD 0) = false → Spaced r bs → Spaced (p ++ bit b :: r) (b :: bs)

/-- A string buffer gives flags that are separated. -/
theorem string_feed {s : List Nat} {bs : List Bool} (h : Spaced s bs) : ∀ {b : StrBuf}, Ahead b s → ∃ b' p, Feed string b bs b' ∧ Ahead b' p := by
  induction h with
  | nil p hp => intro b hb; exact ⟨b, p, .nil _, hb⟩
  | @cons p r c bs hp hr hs ih =>
    intro b hb
    have hc := bit_cases c
    obtain ⟨b1, h1, k1⟩ := hb.space
    rw [dropWhile_spaces hp, List.dropWhile_cons_of_neg (by simp [hc.1])] at k1
    obtain ⟨b2, h2, k2⟩ := k1.integer
    rw [if_neg (by cases c <;> simp [bit])] at k2
    have hdr : (bit c :: r).dropWhile isDigit = r := (takeWhile_digits (l := [bit c]) (r := r) (by simp [hc.2.1]) hr).2
    rw [hdr] at k2
    obtain ⟨b', q, h3, h4⟩ := ih k2
    refine ⟨b', q, .cons ?_ h3, h4⟩
    have hsd : scanDigit (bit c :: r) = (r, some (if c then 1 else 0)) := by
      unfold scanDigit
      rw [List.dropWhile_cons_of_neg (by simp [hc.1])]
      simp only [hc.2.1, if_true, hc.2.2.1]
      cases c <;> rfl
    simp [string, h1, k1.read, hsd, h2]

/-! ### The text written gives the flags -/

theorem filter_spaces {p : List Nat} (h : ∀ c ∈ p, isSpace c = true) : p.filter (!isSpace ·) = [] := by
  rw [List.filter_eq_nil_iff]
  intro c hc; simp [h c hc]

theorem flagsFrom_eq (nb : Nat → Nat → Bool) (v : Nat) : ∀ k w, flagsFrom nb v k w = (List.range k).map fun i => nb v (w + i)
  | 0, _ => rfl
  | k + 1, w => by
    unfold flagsFrom
    rw [flagsFrom_eq nb v k (w + 1), List.range_succ_eq_map, List.map_cons, List.map_map]
    congr 1
    refine List.map_congr_left fun i _ => ?_
    simp only [Function.comp_apply]
    congr 1; omega

theorem rowText_filter (nb : Nat → List Nat) {N v : Nat} (hv : v ≤ N) :
    (rowText (nb v) N v).filter (!isSpace ·) = (flagsFrom (fun a b => decide (b ∈ nb a)) v (N - v) (v + 1)).map bit := by
  have : rowText (nb v) N v = (List.replicate v 32) ++ (flagsFrom (fun a b => decide (b ∈ nb a)) v (N - v) (v + 1)).map bit := by
    unfold rowText
    rw [flagsFrom_eq, List.map_map]
    apply List.ext_getElem
    · simp; omega
    · intro i h1 h2
      simp only [List.getElem_map, List.getElem_range]
      rcases Nat.lt_or_ge i v with h | h
      · rw [List.getElem_append_left (by simpa using h), if_pos h]
        simp
      · rw [List.getElem_append_right (by simpa using h), if_neg (by omega)]
        simp only [List.length_replicate, List.getElem_map, List.getElem_range, Function.comp_apply, bit]
        rw [show v + 1 + (i - v) = i + 1 by omega]
        simp
  rw [this, List.filter_append, filter_spaces (by intro c hc; rw [List.eq_of_mem_replicate hc]; rfl), List.nil_append]
  rw [List.filter_eq_self]
  intro c hc
  obtain ⟨b, -, rfl⟩ := List.mem_map.1 hc
  simp [(bit_cases b).1]

theorem rowsText_filter (nb : Nat → List Nat) (N : Nat) : ∀ k v, v + k = N + 1 →
    (rowsText nb N k v).filter (!isSpace ·) = (rowsFrom (fun a b => decide (b ∈ nb a)) N k v).map bit
  | 0, _, _ => rfl
  | k + 1, v, h => by
    unfold rowsText rowsFrom
    rw [List.filter_append, List.filter_append, rowText_filter nb (by omega), rowsText_filter nb N k (v + 1) (by omega),
      List.map_append]
    have : ([10] : List Nat).filter (!isSpace ·) = [] := rfl
    rw [this, List.append_nil]

theorem filter_dropWhile_space (l : List Nat) : (l.dropWhile isSpace).filter (!isSpace ·) = l.filter (!isSpace ·) := by
  induction l with
  | nil => rfl
  | cons a l ih =>
    by_cases h : isSpace a = true
    · rw [List.dropWhile_cons_of_pos h, ih, List.filter_cons_of_neg (by simp [h])]
    · rw [List.dropWhile_cons_of_neg h]

end Verif.Text
