import Verif.IO.G6
import Verif.Spec.Graph6
import Verif.Graph.Build
import Mathlib.Data.List.Nodup

/-
Lemmas about the graph6 text: cells of the triangle, groups of six bits, the writer's buffer.
-/
namespace Verif.Props
open Verif Verif.Graph Verif.G6

/-! ### Cells of the upper triangle -/

theorem columnOffset_succ (n : Nat) : columnOffset (n + 1) = columnOffset n + n := by
  cases n <;> rfl

theorem two_columnOffset (n : Nat) : 2 * columnOffset n = n * (n - 1) := by
  induction n with
  | zero => rfl
  | succ n ih =>
    rw [columnOffset_succ, Nat.mul_add, ih]
    cases n with
    | zero => rfl
    | succ n => simp only [Nat.add_sub_cancel]; grind

theorem columnOffset_eq (n : Nat) : columnOffset n = n * (n - 1) / 2 := by
  have := two_columnOffset n; omega

theorem cells_succ (n : Nat) : cells (n + 1) = cells n ++ (List.range n).map (·, n) := by
  simp [cells, List.range_succ]

theorem cells_length (n : Nat) : (cells n).length = columnOffset n := by
  induction n with
  | zero => rfl
  | succ n ih => rw [cells_succ, columnOffset_succ]; simp [ih]

theorem mem_cells {n i j : Nat} : (i, j) ∈ cells n ↔ i < j ∧ j < n := by
  simp [cells]; tauto

theorem cells_nodup (n : Nat) : (cells n).Nodup := by
  induction n with
  | zero => simp [cells]
  | succ n ih =>
    rw [cells_succ, List.nodup_append]
    refine ⟨ih, ?_, ?_⟩
    · exact List.Nodup.map (fun a b h => by simpa using h) List.nodup_range
    · intro a ha b hb hab
      subst hab
      obtain ⟨i, j⟩ := a
      have := (mem_cells.1 ha).2
      simp only [List.mem_map, Prod.mk.injEq] at hb
      obtain ⟨_, _, _, h⟩ := hb
      omega

theorem cells_at {n i j : Nat} (hi : i < j) (hj : j < n) :
    (cells n)[columnOffset j + i]? = some (i, j) := by
  induction n with
  | zero => omega
  | succ n ih =>
    rw [cells_succ]
    by_cases h : j = n
    · subst h
      rw [List.getElem?_append_right (by rw [cells_length]; omega), cells_length]
      simp [hi]
    · have hj' : j < n := by omega
      have : columnOffset j + i < columnOffset n := by
        have h1 := ih hj'
        have := (List.getElem?_eq_some_iff.1 h1).1
        rwa [cells_length] at this
      rw [List.getElem?_append_left (by rw [cells_length]; exact this)]
      exact ih hj'

theorem cell_index_lt {n i j : Nat} (hi : i < j) (hj : j < n) :
    columnOffset j + i < columnOffset n := by
  have := (List.getElem?_eq_some_iff.1 (cells_at hi hj)).1
  rwa [cells_length] at this

theorem cell_index {n i j p : Nat} (h : (cells n)[p]? = some (i, j)) : p = columnOffset j + i := by
  obtain ⟨hp, hv⟩ := List.getElem?_eq_some_iff.1 h
  have hm := mem_cells.1 (hv ▸ List.getElem_mem hp)
  obtain ⟨hq, hv'⟩ := List.getElem?_eq_some_iff.1 (cells_at hm.1 hm.2)
  exact (List.Nodup.getElem_inj_iff (cells_nodup n)).1 (hv.trans hv'.symm)

/-- The row and column pointers of the decoder, step by step. -/
def cellSeq (r c : Nat) : Nat → List (Nat × Nat)
  | 0 => []
  | k + 1 => wrap r c :: cellSeq ((wrap r c).1 + 1) (wrap r c).2 k

theorem cellSeq_congr {r c r' c' : Nat} (h : wrap r c = wrap r' c') (k : Nat) :
    cellSeq r c k = cellSeq r' c' k := by
  cases k with
  | zero => rfl
  | succ k => simp only [cellSeq, h]

theorem cellSeq_row (j k : Nat) : ∀ d i, i + d = j →
    cellSeq i j (d + k) = (List.range' i d).map (·, j) ++ cellSeq j j k
  | 0, i, h => by simp at h; simp [h]
  | d + 1, i, h => by
    rw [show d + 1 + k = (d + k) + 1 by omega]
    have hw : wrap i j = (i, j) := by simp [wrap]; omega
    simp only [cellSeq, hw]
    rw [cellSeq_row j k d (i + 1) (by omega)]
    simp [List.range'_succ]

theorem cellSeq_cells (n k : Nat) :
    cellSeq 0 0 (columnOffset (n + 1) + k) = cells (n + 1) ++ cellSeq n n k := by
  induction n generalizing k with
  | zero => simp [columnOffset, cells]
  | succ n ih =>
    rw [columnOffset_succ, Nat.add_assoc, ih, cells_succ (n + 1), List.append_assoc]
    congr 1
    rw [cellSeq_congr (r' := 0) (c' := n + 1) (by simp [wrap]), cellSeq_row (n + 1) k (n + 1) 0 (by omega)]
    rw [List.range_eq_range']

theorem cellSeq_length (r c k : Nat) : (cellSeq r c k).length = k := by
  induction k generalizing r c with
  | zero => rfl
  | succ k ih => simp [cellSeq, ih]

/-! ### Groups of six bits -/

/-- Six bits of a set as a number. -/
def byteOf (S : Nat → Bool) (k : Nat) : Nat :=
  32 * (S (6 * k)).toNat + 16 * (S (6 * k + 1)).toNat + 8 * (S (6 * k + 2)).toNat +
    4 * (S (6 * k + 3)).toNat + 2 * (S (6 * k + 4)).toNat + (S (6 * k + 5)).toNat

theorem byteOf_congr {S T : Nat → Bool} {k : Nat} (h : ∀ p, 6 * k ≤ p → p < 6 * k + 6 → S p = T p) :
    byteOf S k = byteOf T k := by
  unfold byteOf
  rw [h _ (by omega) (by omega), h (6 * k + 1) (by omega) (by omega), h (6 * k + 2) (by omega) (by omega),
    h (6 * k + 3) (by omega) (by omega), h (6 * k + 4) (by omega) (by omega),
    h (6 * k + 5) (by omega) (by omega)]

theorem or_bit (a b c d e f : Bool) :
    let v := fun (a b c d e f : Bool) =>
      32 * a.toNat + 16 * b.toNat + 8 * c.toNat + 4 * d.toNat + 2 * e.toNat + f.toNat
    v a b c d e f ||| (1 <<< 5) = v true b c d e f ∧ v a b c d e f ||| (1 <<< 4) = v a true c d e f ∧
    v a b c d e f ||| (1 <<< 3) = v a b true d e f ∧ v a b c d e f ||| (1 <<< 2) = v a b c true e f ∧
    v a b c d e f ||| (1 <<< 1) = v a b c d true f ∧ v a b c d e f ||| (1 <<< 0) = v a b c d e true := by
  revert a b c d e f; decide

/-- Setting one bit. -/
theorem byteOf_or (S : Nat → Bool) (p : Nat) :
    byteOf S (p / 6) ||| (1 <<< (5 - p % 6)) = byteOf (fun q => S q || q == p) (p / 6) := by
  obtain ⟨k, r, hr, rfl⟩ : ∃ k r, r < 6 ∧ p = 6 * k + r := ⟨p / 6, p % 6, by omega, by omega⟩
  have h1 : (6 * k + r) / 6 = k := by omega
  have h2 : (6 * k + r) % 6 = r := by omega
  rw [h1, h2]
  have h := or_bit (S (6 * k)) (S (6 * k + 1)) (S (6 * k + 2)) (S (6 * k + 3)) (S (6 * k + 4)) (S (6 * k + 5))
  obtain ⟨b5, b4, b3, b2, b1, b0⟩ := h
  unfold byteOf
  have hr' : r = 0 ∨ r = 1 ∨ r = 2 ∨ r = 3 ∨ r = 4 ∨ r = 5 := by omega
  have z : ∀ b, b ≠ 0 → (6 * k == 6 * k + b) = false := by intro b hb; simp [hb]
  have z' : ∀ b, b ≠ 0 → (6 * k + b == 6 * k) = false := by intro b hb; simp [hb]
  rcases hr' with rfl | rfl | rfl | rfl | rfl | rfl
  · simp [z'] at *; exact b5
  · simp [z, z'] at *; exact b4
  · simp [z, z'] at *; exact b3
  · simp [z, z'] at *; exact b2
  · simp [z, z'] at *; exact b1
  · simp [z] at *; exact b0

theorem byteOf_le (S : Nat → Bool) (k : Nat) : byteOf S k ≤ 63 := by
  unfold byteOf
  have := fun b : Bool => Bool.toNat_le b
  have h0 := this (S (6 * k))
  have h1 := this (S (6 * k + 1))
  have h2 := this (S (6 * k + 2))
  have h3 := this (S (6 * k + 3))
  have h4 := this (S (6 * k + 4))
  have h5 := this (S (6 * k + 5))
  omega

/-- A bit list as a set of positions. -/
def bitSet (x : List Bool) (p : Nat) : Bool := x.getD p false

theorem sixes_eq : ∀ (k : Nat) (x : List Bool), x.length = 6 * k →
    sixes x = (List.range k).map fun i => byteOf (bitSet x) i + 63
  | 0, x, h => by
    have : x = [] := List.eq_nil_of_length_eq_zero (by omega)
    subst this; rfl
  | k + 1, x, h => by
    match x, h with
    | a :: b :: c :: d :: e :: f :: t, h =>
      have ht : t.length = 6 * k := by simp at h; omega
      rw [sixes, sixes_eq k t ht, List.range_succ_eq_map, List.map_cons, List.map_map]
      congr 1

/-- Length after padding to a multiple of six. -/
theorem pad_length (x : List Bool) :
    (x ++ List.replicate ((6 - x.length % 6) % 6) false).length =
      6 * (x.length / 6 + if x.length % 6 ≠ 0 then 1 else 0) := by
  simp; split <;> omega

theorem bitText_eq (x : List Bool) :
    bitText x = (List.range (x.length / 6 + if x.length % 6 ≠ 0 then 1 else 0)).map
      fun i => byteOf (bitSet x) i + 63 := by
  rw [bitText, sixes_eq _ _ (pad_length x)]
  refine List.map_congr_left fun i _ => ?_
  congr 1
  refine byteOf_congr fun p _ _ => ?_
  simp only [bitSet, List.getD_eq_getElem?_getD]
  by_cases hp : p < x.length
  · rw [List.getElem?_append_left hp]
  · rw [List.getElem?_append_right (by omega), List.getElem?_replicate]
    rw [List.getElem?_eq_none (l := x) (by omega)]
    split <;> rfl

theorem charBits_val (a b c d e f : Bool) :
    charBits ((32 * a.toNat + 16 * b.toNat + 8 * c.toNat + 4 * d.toNat + 2 * e.toNat + f.toNat + 63 : Nat) : Int) =
      [a, b, c, d, e, f] := by
  revert a b c d e f; decide

theorem sixes_bits : ∀ (k : Nat) (x : List Bool), x.length = 6 * k →
    ((sixes x).map Int.ofNat).flatMap charBits = x
  | 0, x, h => by
    have : x = [] := List.eq_nil_of_length_eq_zero (by omega)
    subst this; rfl
  | k + 1, x, h => by
    match x, h with
    | a :: b :: c :: d :: e :: f :: t, h =>
      have ht : t.length = 6 * k := by simp at h; omega
      rw [sixes, List.map_cons, List.flatMap_cons, sixes_bits k t ht]
      have := charBits_val a b c d e f
      simp only [Int.ofNat_eq_natCast]
      rw [this]; rfl

/-! ### The writer's buffer -/

/-- Order bytes, `m` bytes holding a bit set, three spare characters. -/
def bufOf (o : List Nat) (m : Nat) (S : Nat → Bool) : List Nat :=
  o ++ (List.range m).map (byteOf S) ++ [0, 0, 0]

theorem bufOf_length (o : List Nat) (m : Nat) (S) : (bufOf o m S).length = o.length + m + 3 := by
  simp [bufOf, Nat.add_assoc]

theorem poke_bufOf (o : List Nat) {m p : Nat} (S : Nat → Bool) (hp : p < 6 * m) :
    poke (bufOf o m S) (o.length + p / 6) (fun c => c ||| (1 <<< (5 - p % 6))) =
      some (bufOf o m fun q => S q || q == p) := by
  unfold poke
  rw [if_pos (by rw [bufOf_length]; omega)]
  congr 1
  refine List.ext_getElem? fun i => ?_
  unfold bufOf
  rw [List.getElem?_modify]
  by_cases hi : i < o.length
  · have h : o.length + p / 6 ≠ i := by omega
    simp only [h, if_false]
    simp [List.getElem?_append, hi]
  · by_cases hi2 : i < o.length + m
    · have e : ∀ T, (o ++ (List.range m).map (byteOf T) ++ [0, 0, 0])[i]? = some (byteOf T (i - o.length)) := by
        intro T
        rw [List.append_assoc, List.getElem?_append_right (by omega),
          List.getElem?_append_left (by simp; omega), List.getElem?_map, List.getElem?_range (by omega)]
        rfl
      rw [e, e]
      by_cases h : o.length + p / 6 = i
      · simp only [h, if_true]
        have : i - o.length = p / 6 := by omega
        rw [this]
        simp only [Option.map_eq_map, Option.map_some]
        rw [byteOf_or]
      · simp only [h, if_false]
        simp only [Option.map_eq_map, Option.map_some]
        congr 1
        refine byteOf_congr fun q h1 h2 => ?_
        have : q ≠ p := by rintro rfl; omega
        simp [this]
    · have h : o.length + p / 6 ≠ i := by omega
      simp only [h, if_false]
      rw [List.getElem?_append_right (by simp; omega), List.getElem?_append_right (by simp; omega)]
      simp

theorem modify_at_length {α} (f : α → α) (x : α) (t : List α) : ∀ l : List α,
    (l ++ x :: t).modify l.length f = l ++ f x :: t
  | [] => by simp
  | a :: l => by simp [modify_at_length f x t l]

theorem add63_append (o t : List Nat) : ∀ l : List Nat,
    ∀ d : List Nat, add63 (o.length + d.length) (o ++ d ++ l ++ t) l.length =
      some (o ++ d ++ l.map (· + 63) ++ t)
  | [], d => by simp [add63]
  | x :: l, d => by
    have hpoke : poke (o ++ d ++ (x :: l) ++ t) (o.length + d.length) (· + 63) =
        some (o ++ (d ++ [x + 63]) ++ l ++ t) := by
      unfold poke
      rw [if_pos (by simp)]
      congr 1
      have := modify_at_length (· + 63) x (l ++ t) (o ++ d)
      simp only [List.length_append] at this
      simpa using this
    simp only [List.length_cons, add63, hpoke, Option.bind_eq_bind, Option.bind_some]
    have := add63_append o t l (d ++ [x + 63])
    simp only [List.length_append, List.length_singleton] at this
    rw [show o.length + d.length + 1 = o.length + (d.length + 1) by omega, this]
    simp

/-! ### The writer's edge loop -/

/-- The edges in slots `e`, `e + 2`, …: their endpoints. -/
def pairsFrom (g : Graph) (e : Nat) : Nat → List (Nat × Nat)
  | 0 => []
  | k + 1 => (if (g.E e).nbr ≠ 0 then [((g.E e).nbr, (g.E (twin e)).nbr)] else []) ++ pairsFrom g (e + 2) k

theorem mem_pairsFrom {g : Graph} {p : Nat × Nat} : ∀ {k e : Nat}, p ∈ pairsFrom g e k ↔
    ∃ i < k, (g.E (e + 2 * i)).nbr ≠ 0 ∧ p = ((g.E (e + 2 * i)).nbr, (g.E (twin (e + 2 * i))).nbr)
  | 0, e => by simp [pairsFrom]
  | k + 1, e => by
    rw [pairsFrom, List.mem_append, mem_pairsFrom]
    constructor
    · rintro (h | ⟨i, hi, h1, h2⟩)
      · refine ⟨0, by omega, ?_⟩
        split at h <;> simp_all
      · exact ⟨i + 1, by omega, by rw [show e + 2 * (i + 1) = e + 2 + 2 * i by omega]; exact ⟨h1, h2⟩⟩
    · rintro ⟨i, hi, h1, h2⟩
      cases i with
      | zero => left; simp at h1 h2; simp [h1, h2]
      | succ i => right; exact ⟨i, by omega, by rw [show e + 2 + 2 * i = e + 2 * (i + 1) by omega]; exact ⟨h1, h2⟩⟩

theorem twin_lt {e b : Nat} (hb : b % 2 = 0) (h : e < b) : twin e < b := by
  rw [twin_eq]; split <;> omega

theorem nextInUse_eq {g : Graph} (hcap : g.inUse ≤ g.eSize) (hev : g.eSize % 2 = 0) : ∀ (k e f : Nat),
    e + 2 * k = g.inUse → k < f →
    ∃ e' u v, nextInUse g e f = some (e', u, v) ∧
      ((u = 0 ∧ v = 0 ∧ pairsFrom g e k = []) ∨
       (u ≠ 0 ∧ ∃ k', k' < k ∧ e' + 2 + 2 * k' = g.inUse ∧
        pairsFrom g e k = (u, v) :: pairsFrom g (e' + 2) k'))
  | 0, e, f + 1, h, _ => ⟨e, 0, 0, by simp [nextInUse]; omega, .inl ⟨rfl, rfl, rfl⟩⟩
  | k + 1, e, f + 1, h, hf => by
    have he : e < g.eSize := by omega
    simp only [nextInUse, if_pos (show e < g.inUse by omega), getNbr_eq he, Option.bind_eq_bind,
      Option.bind_some]
    by_cases hn : (g.E e).nbr = 0
    · obtain ⟨e', u, v, h1, h2⟩ := nextInUse_eq hcap hev k (e + 2) f (by omega) (by omega)
      refine ⟨e', u, v, by simpa [hn] using h1, ?_⟩
      rw [pairsFrom]
      simp only [hn, ne_eq, not_true, if_false, List.nil_append]
      rcases h2 with h2 | ⟨h2, k', hk, h3⟩
      · exact .inl h2
      · exact .inr ⟨h2, k', by omega, h3⟩
    · refine ⟨e, (g.E e).nbr, (g.E (twin e)).nbr, ?_, .inr ⟨hn, k, by omega, by omega, ?_⟩⟩
      · simp [hn, getNbr_eq (twin_lt hev he)]
      · rw [pairsFrom]; simp [hn]

theorem putEdges_eq {g : Graph} (hcap : g.inUse ≤ g.eSize) (hev : g.eSize % 2 = 0) (nOrd : Nat) :
    ∀ (k e : Nat) (buf : List Nat) (f : Nat), e + 2 * k = g.inUse → k < f →
    (∀ p ∈ pairsFrom g e k, p.2 ≠ 0) →
    putEdges g nOrd e buf f = (pairsFrom g e k).foldlM (fun b p => G6.putEdge g.N nOrd p.1 p.2 b) buf := by
  intro k
  induction k using Nat.strong_induction_on with
  | _ k ih =>
    intro e buf f h hf hp
    cases f with
    | zero => omega
    | succ f =>
      obtain ⟨e', u, v, h1, h2⟩ := nextInUse_eq hcap hev k e (g.inUse + 1) h (by omega)
      simp only [putEdges, h1, Option.bind_eq_bind, Option.bind_some]
      rcases h2 with ⟨rfl, rfl, h3⟩ | ⟨h2, k', hk, h3, h4⟩
      · simp [h3]
      · rw [h4] at hp ⊢
        have hv := hp (u, v) (by simp)
        simp only at hv
        rw [if_pos ⟨h2, hv⟩, List.foldlM_cons]
        congr 1
        funext b
        exact ih k' hk (e' + 2) b f h3 (by omega) (fun p hp' => hp p (by simp [hp']))

/-- Bit position of an edge. -/
def bitOf (p : Nat × Nat) : Nat := columnOffset (rowCol p.1 p.2).2 + (rowCol p.1 p.2).1

theorem rowCol_lt {u v n : Nat} (hu : 1 ≤ u ∧ u ≤ n) (hv : 1 ≤ v ∧ v ≤ n) (h : u ≠ v) :
    (rowCol u v).1 < (rowCol u v).2 ∧ (rowCol u v).2 < n := by
  unfold rowCol; split <;> simp <;> omega

theorem putEdges_bits {n m : Nat} (o : List Nat) (hm : columnOffset n ≤ 6 * m) :
    ∀ (ps : List (Nat × Nat)) (S : Nat → Bool),
    (∀ p ∈ ps, (1 ≤ p.1 ∧ p.1 ≤ n) ∧ (1 ≤ p.2 ∧ p.2 ≤ n) ∧ p.1 ≠ p.2) →
    ps.foldlM (fun b p => G6.putEdge n o.length p.1 p.2 b) (bufOf o m S) =
      some (bufOf o m fun q => S q || (ps.map bitOf).contains q)
  | [], S, _ => by simp
  | p :: ps, S, h => by
    obtain ⟨hu, hv, hne⟩ := h p (by simp)
    have hrc := rowCol_lt hu hv hne
    have hlt := cell_index_lt hrc.1 hrc.2
    rw [List.foldlM_cons]
    have : G6.putEdge n o.length p.1 p.2 (bufOf o m S) = some (bufOf o m fun q => S q || q == bitOf p) := by
      unfold G6.putEdge
      simp only [if_pos (Nat.le_of_lt hrc.2)]
      exact poke_bufOf o S (by omega)
    rw [this]
    simp only [Option.bind_eq_bind, Option.bind_some]
    rw [putEdges_bits o hm ps _ (fun q hq => h q (by simp [hq]))]
    congr 2
    funext q
    simp only [List.map_cons, List.contains_cons, Bool.or_assoc]

/-! ### The encoder -/

/-- Order bytes the writer produces: nothing for order 1. -/
def orderBytes (n : Nat) : List Nat := if n = 1 then [0] else orderText n

theorem order_digits (n : Nat) : ((n >>> 0) &&& 63) = n % 64 ∧ ((n >>> 6) &&& 63) = n / 64 % 64 ∧
    ((n >>> 12) &&& 63) = n / 4096 % 64 := by
  have h : ∀ x, x &&& 63 = x % 64 := fun x => Nat.and_two_pow_sub_one_eq_mod x 6
  simp only [h, Nat.shiftRight_eq_div_pow]
  simp

theorem putOrder_eq {n : Nat} (m : Nat) (h1 : 1 ≤ n) (h2 : n ≤ 100000) :
    putOrder n (List.replicate ((numCharsOrd n).toNat + m + 3) 0) =
      some (bufOf (orderBytes n) m fun _ => false) ∧
    (orderBytes n).length = (numCharsOrd n).toNat := by
  have hb : (List.range m).map (byteOf fun _ => false) ++ [0, 0, 0] = List.replicate (m + 3) 0 := by
    rw [List.eq_replicate_iff]
    refine ⟨by simp, fun b hb => ?_⟩
    simp only [List.mem_append, List.mem_map] at hb
    rcases hb with ⟨k, _, rfl⟩ | hb
    · rfl
    · simpa using hb
  obtain ⟨d0, d1, d2⟩ := order_digits n
  unfold putOrder orderBytes bufOf orderText
  rw [List.append_assoc, hb]
  by_cases h62 : n > 62
  · have : numCharsOrd n = 4 := by unfold numCharsOrd; rw [if_neg (by omega), if_pos (by omega)]
    rw [this, d0, d1, d2]
    have e : List.replicate ((4 : Int).toNat + m + 3) 0 = [0, 0, 0, 0] ++ List.replicate (m + 3) 0 := by
      show List.replicate (4 + m + 3) 0 = List.replicate 4 0 ++ _
      rw [List.replicate_append_replicate]; congr 1
      try omega
    rw [e]
    rw [if_pos h62, if_neg (by omega), if_neg (by omega)]
    refine ⟨?_, rfl⟩
    simp [poke]
  · have : numCharsOrd n = 1 := by unfold numCharsOrd; rw [if_pos (by omega)]
    rw [this, if_neg h62]
    have e : List.replicate ((1 : Int).toNat + m + 3) 0 = 0 :: List.replicate (m + 3) 0 := by
      show List.replicate (1 + m + 3) 0 = _
      rw [← List.replicate_succ]; congr 1
      try omega
    rw [e]
    by_cases hn : n = 1
    · subst hn; exact ⟨rfl, rfl⟩
    · rw [if_pos (by omega), if_neg hn, if_pos (by omega)]
      refine ⟨?_, rfl⟩
      simp [poke]

theorem numCharsEnc_eq {n : Nat} (h : n ≤ 46341) :
    numCharsEnc n = some (columnOffset n / 6 + if columnOffset n % 6 ≠ 0 then 1 else 0) ∧
      maxEdgeCount n = some (columnOffset n) := by
  have : n * (n - 1) < 2 ^ 31 := by
    have : n * (n - 1) ≤ 46341 * 46340 := Nat.mul_le_mul h (by omega)
    omega
  have hm : maxEdgeCount n = some (columnOffset n) := by
    rw [maxEdgeCount, if_pos this, columnOffset_eq]
  exact ⟨by simp [numCharsEnc, hm], hm⟩

/-- The pairs of all edges of a simple graph. -/
theorem pairs_simple {g : Graph} (hr : Reach g) (hs : IsSimple g) :
    ∀ p ∈ pairsFrom g 2 (g.M + g.holes.length),
      (1 ≤ p.1 ∧ p.1 ≤ g.N) ∧ (1 ≤ p.2 ∧ p.2 ≤ g.N) ∧ p.1 ≠ p.2 ∧ Adjacent g p.1 p.2 ∧ Adjacent g p.2 p.1 := by
  obtain ⟨rot, h⟩ := hr.inv
  intro p hp
  obtain ⟨i, hi, hn, rfl⟩ := mem_pairsFrom.1 hp
  generalize 2 + 2 * i = e at hn ⊢
  have hl : ∃ v, e ∈ rot v := by
    by_contra hc
    push Not at hc
    exact hn (by rw [h.zero e hc])
  obtain ⟨v, hv⟩ := hl
  have hown := h.owner v e hv
  have htw := h.twins v e hv
  rw [hown]
  generalize hu : (g.E e).nbr = u at hn htw ⊢
  have hvv := h.links.vert v e hv
  have huv := h.links.vert u _ htw
  have nbv := neighbors_eq h hvv.2
  have nbu := neighbors_eq h huv.2
  have hmv : u ∈ (rot v).map (fun e => (g.E e).nbr) := List.mem_map.2 ⟨e, hv, hu⟩
  have hmu : v ∈ (rot u).map (fun e => (g.E e).nbr) := List.mem_map.2 ⟨_, htw, hown⟩
  obtain ⟨l, hl, _, hnot, hle, hnil⟩ := hs v (vSize_iff.2 hvv)
  rw [nbv] at hl; cases hl
  obtain ⟨l, hl, _, hnot', hle', hnil'⟩ := hs u (vSize_iff.2 huv)
  rw [nbu] at hl; cases hl
  have h1 : u ≤ g.N := hle u hmv
  have h2 : v ≤ g.N := hle' v hmu
  refine ⟨⟨huv.1, h1⟩, ⟨hvv.1, h2⟩, ?_, ⟨_, nbu, hmu⟩, ⟨_, nbv, hmv⟩⟩
  intro (he : u = v)
  exact hnot (he ▸ hmv)

/-- Every adjacency is found among the pairs. -/
theorem pairs_complete {g : Graph} (hr : Reach g) {u v : Nat} (hu : IsVertex g u) (ha : Adjacent g u v) :
    (u, v) ∈ pairsFrom g 2 (g.M + g.holes.length) ∨ (v, u) ∈ pairsFrom g 2 (g.M + g.holes.length) := by
  obtain ⟨rot, h⟩ := hr.inv
  obtain ⟨l, hl, hv⟩ := ha
  rw [neighbors_eq h (vSize_iff.1 hu).2] at hl
  cases hl
  obtain ⟨e, he, hev⟩ := List.mem_map.1 hv
  have hown := h.owner u e he
  have htw := h.twins u e he
  have hlt := h.below u e he
  have h2 := (h.links.arc u e he).1
  have hu1 := (vSize_iff.1 hu).1
  have hv1 := (h.links.vert _ _ htw).1
  unfold inUse at hlt
  by_cases hev2 : e % 2 = 0
  · right
    refine mem_pairsFrom.2 ⟨(e - 2) / 2, by omega, ?_⟩
    have : 2 + 2 * ((e - 2) / 2) = e := by omega
    rw [this, hown, hev]
    exact ⟨by rw [← hev]; omega, rfl⟩
  · left
    have ht : twin e = e - 1 := by rw [twin_eq]; split <;> omega
    refine mem_pairsFrom.2 ⟨(e - 2) / 2, by omega, ?_⟩
    have : 2 + 2 * ((e - 2) / 2) = twin e := by omega
    rw [this, hown, twin_twin, hev]
    exact ⟨by omega, rfl⟩

theorem rowCol_sorted {u v : Nat} (h : 1 ≤ u) (h' : u < v) : rowCol u v = (u - 1, v - 1) ∧
    rowCol v u = (u - 1, v - 1) := by
  unfold rowCol
  constructor
  · rw [if_neg (by omega)]
  · rw [if_pos (by omega)]

/-- The bits the writer sets are those of the adjacency triangle. -/
theorem bits_eq {g : Graph} (hr : Reach g) (hs : IsSimple g) {adj : Nat → Nat → Bool}
    (hd : Describes adj g) (q : Nat) :
    ((pairsFrom g 2 (g.M + g.holes.length)).map bitOf).contains q = bitSet (triangle g.N adj) q := by
  rw [Bool.eq_iff_iff, List.contains_iff_mem, List.mem_map]
  unfold bitSet triangle
  rw [List.getD_eq_getElem?_getD, List.getElem?_map]
  constructor
  · rintro ⟨⟨u, v⟩, hp, rfl⟩
    obtain ⟨hu, hv, hne, ha, ha'⟩ := pairs_simple hr hs _ hp
    simp only at hu hv hne ha ha'
    unfold bitOf
    rcases Nat.lt_or_gt_of_ne hne with hlt | hlt
    · rw [(rowCol_sorted hu.1 hlt).1, cells_at (by omega) (by omega : v - 1 < g.N)]
      simp only [Option.map_some, Option.getD_some]
      refine (hd _ _ (by omega) (by omega)).2 ?_
      rwa [Nat.sub_add_cancel hu.1, Nat.sub_add_cancel hv.1]
    · simp only
      rw [(rowCol_sorted hv.1 hlt).2, cells_at (by omega) (by omega : u - 1 < g.N)]
      simp only [Option.map_some, Option.getD_some]
      refine (hd _ _ (by omega) (by omega)).2 ?_
      rwa [Nat.sub_add_cancel hu.1, Nat.sub_add_cancel hv.1]
  · intro h
    cases hc : (cells g.N)[q]? with
    | none => simp [hc] at h
    | some p =>
      obtain ⟨i, j⟩ := p
      simp only [hc, Option.map_some, Option.getD_some] at h
      obtain ⟨hq, hv⟩ := List.getElem?_eq_some_iff.1 hc
      have hm := mem_cells.1 (hv ▸ List.getElem_mem hq)
      have ha := (hd i j hm.1 hm.2).1 h
      have := cell_index hc
      rcases pairs_complete hr (u := i + 1) (by unfold IsVertex; omega) ha with hp | hp
      · exact ⟨_, hp, by unfold bitOf; simp only; rw [(rowCol_sorted (by omega) (by omega)).1, this]; rfl⟩
      · exact ⟨_, hp, by unfold bitOf; simp only; rw [(rowCol_sorted (by omega) (by omega)).2, this]; rfl⟩

theorem triangle_length (n : Nat) (adj) : (triangle n adj).length = columnOffset n := by
  simp [triangle, cells_length]

theorem encode_eq {g : Graph} (hr : Reach g) (hs : IsSimple g) (h1 : 1 ≤ g.N) (h2 : g.N ≤ 46341)
    {adj : Nat → Nat → Bool} (hd : Describes adj g) :
    encode g = some (orderBytes g.N ++ bitText (triangle g.N adj) ++ [0, 0, 0]) := by
  obtain ⟨rot, h⟩ := hr.inv
  obtain ⟨hn, -⟩ := numCharsEnc_eq h2
  unfold encode
  rw [hn]
  simp only [Option.bind_eq_bind, Option.bind_some]
  generalize hm : (columnOffset g.N / 6 + if columnOffset g.N % 6 ≠ 0 then 1 else 0) = m
  have hm6 : columnOffset g.N ≤ 6 * m := by rw [← hm]; split <;> omega
  obtain ⟨ho, hol⟩ := putOrder_eq m h1 (by omega : g.N ≤ 100000)
  rw [ho]
  simp only [Option.bind_some]
  have hps := pairs_simple hr hs
  rw [putEdges_eq h.inUse_le (by have := h.even; unfold eSize; omega) _ (g.M + g.holes.length) 2 _ _
    (by unfold inUse; omega) (by unfold inUse; omega) (fun p hp => by have := (hps p hp).2.1.1; omega)]
  rw [← hol, putEdges_bits (orderBytes g.N) hm6 _ _ (fun p hp => ⟨(hps p hp).1, (hps p hp).2.1, (hps p hp).2.2.1⟩)]
  simp only [Option.bind_some]
  have hbits : (fun q => false || ((pairsFrom g 2 (g.M + g.holes.length)).map bitOf).contains q) =
      bitSet (triangle g.N adj) := by
    funext q; rw [Bool.false_or, bits_eq hr hs hd]
  rw [hbits]
  have := add63_append (orderBytes g.N) [0, 0, 0] ((List.range m).map (byteOf (bitSet (triangle g.N adj)))) []
  simp only [List.length_nil, Nat.add_zero, List.append_nil, List.length_map, List.length_range] at this
  unfold bufOf
  rw [this, bitText_eq, triangle_length, hm, List.map_map]
  rfl

theorem bitText_range (x : List Bool) : ∀ c ∈ bitText x, 63 ≤ c ∧ c ≤ 126 := by
  rw [bitText_eq]
  intro c hc
  obtain ⟨k, _, rfl⟩ := List.mem_map.1 hc
  have := byteOf_le (bitSet x) k
  omega

theorem orderText_range {n : Nat} : ∀ c ∈ orderText n, 63 ≤ c ∧ c ≤ 126 := by
  unfold orderText
  intro c hc
  split at hc
  · simp at hc; omega
  · simp at hc; omega

end Verif.Props
