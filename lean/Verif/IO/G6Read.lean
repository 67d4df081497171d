import Verif.IO.G6Lemmas

/-
Lemmas about the graph6 reader.
-/
namespace Verif.Props
open Verif Verif.Graph Verif.G6

/-! ### Decoding -/

theorem decodeBits_eq : ∀ (bs : List Bool) (g : Graph) (r c : Nat), decodeBits g r c bs =
    addAll g ((((cellSeq r c bs.length).zip bs).filter (·.2)).map fun p => (p.1.1 + 1, p.1.2 + 1))
  | [], g, r, c => rfl
  | b :: bs, g, r, c => by
    rw [decodeBits, List.length_cons, cellSeq, List.zip_cons_cons]
    cases b with
    | false =>
      rw [List.filter_cons_of_neg (by simp)]
      simp only [Bool.false_eq_true, if_false]
      exact decodeBits_eq bs g _ _
    | true =>
      rw [List.filter_cons_of_pos (by simp), List.map_cons, addAll]
      simp only [if_true]
      congr 1
      funext x
      split
      · rfl
      · exact decodeBits_eq bs x.1 _ _

theorem filter_zip_map {α} (f : α → Bool) (k : α → Nat × Nat) : ∀ l : List α,
    ((l.zip (l.map f)).filter (·.2)).map (fun p => k p.1) = (l.filter f).map k
  | [] => rfl
  | a :: l => by
    rw [List.map_cons, List.zip_cons_cons]
    cases h : f a with
    | false => rw [List.filter_cons_of_neg (by simp), List.filter_cons_of_neg (by simp [h]), filter_zip_map f k l]
    | true => rw [List.filter_cons_of_pos (by simp), List.filter_cons_of_pos (by simp [h]), List.map_cons,
        List.map_cons, filter_zip_map f k l]

/-- The endpoint pairs a text stands for. -/
def edgesOf (n : Nat) (adj : Nat → Nat → Bool) : List (Nat × Nat) :=
  ((cells n).filter fun p => adj p.1 p.2).map fun p => (p.1 + 1, p.2 + 1)

theorem decode_bitText (g : Graph) {n : Nat} (hn : 1 ≤ n) (adj : Nat → Nat → Bool) :
    decode g (chars (bitText (triangle n adj))) = addAll g (edgesOf n adj) := by
  unfold decode chars
  rw [bitText, sixes_bits _ _ (pad_length _), decodeBits_eq]
  congr 1
  unfold edgesOf
  rw [← filter_zip_map (fun p : Nat × Nat => adj p.1 p.2) (fun p : Nat × Nat => (p.1 + 1, p.2 + 1)) (cells n)]
  congr 1
  obtain ⟨n, rfl⟩ : ∃ k, n = k + 1 := ⟨n - 1, by omega⟩
  rw [List.length_append, triangle_length, List.length_replicate,
    cellSeq_congr (r' := 0) (c' := 0) (by simp [wrap]), cellSeq_cells]
  rw [List.zip_append (by simp [triangle])]
  rw [List.filter_append]
  have : ∀ (l : List (Nat × Nat)) (m : Nat), (l.zip (List.replicate m false)).filter (·.2) = [] := by
    intro l m
    rw [List.filter_eq_nil_iff]
    rintro ⟨a, b⟩ h
    have := (List.of_mem_zip h).2
    simp at this; simp [this.2]
  rw [this, List.append_nil]
  rfl

theorem neighbors_empty {g : Graph} (hr : Reach g) (hM : g.M = 0) {w : Nat} (hw : IsVertex g w) :
    neighbors g w = some [] := by
  obtain ⟨rot, h⟩ := hr.inv
  have hc := h.count
  rw [hM] at hc
  have hw' := (vSize_iff.1 hw).2
  have : rot w = [] := by
    apply List.eq_nil_iff_forall_not_mem.2
    intro e he
    have : e ∈ allArcs g rot := List.mem_flatMap.2 ⟨w, List.mem_range.2 hw', he⟩
    rw [List.eq_nil_of_length_eq_zero (by omega : (allArcs g rot).length = 0)] at this
    simp at this
  rw [neighbors_eq h hw', this]; rfl

theorem undirected_empty {g : Graph} (hr : Reach g) (hM : g.M = 0) : Undirected g := by
  obtain ⟨rot, h⟩ := hr.inv
  intro e he
  obtain ⟨w, hw⟩ := (live_iff h).1 he
  have hv := h.links.vert w e hw
  have := neighbors_empty hr hM (vSize_iff.2 hv)
  rw [neighbors_eq h hv.2] at this
  simp at this
  rw [this] at hw; simp at hw

theorem edgesOf_mem {n : Nat} {adj : Nat → Nat → Bool} {u v : Nat} :
    (u, v) ∈ edgesOf n adj ↔ 1 ≤ u ∧ u < v ∧ v ≤ n ∧ adj (u - 1) (v - 1) = true := by
  unfold edgesOf
  rw [List.mem_map]
  constructor
  · rintro ⟨⟨i, j⟩, h, he⟩
    rw [List.mem_filter, mem_cells] at h
    cases he
    exact ⟨by omega, by omega, by omega, h.2⟩
  · rintro ⟨h1, h2, h3, h4⟩
    refine ⟨(u - 1, v - 1), ?_, ?_⟩
    · rw [List.mem_filter, mem_cells]; exact ⟨⟨by omega, by omega⟩, h4⟩
    · simp only [Prod.mk.injEq]; omega

theorem edgesOf_nodup (n : Nat) (adj) : (edgesOf n adj).Nodup := by
  unfold edgesOf
  refine List.Nodup.map ?_ ((cells_nodup n).filter _)
  rintro ⟨a, b⟩ ⟨c, d⟩ h
  simp only [Prod.mk.injEq] at h ⊢
  omega

/-- What decoding makes of an empty graph. -/
structure Decoded (n : Nat) (adj : Nat → Nat → Bool) (g g' : Graph) : Prop where
  reach : Reach g'
  order : g'.N = n
  cap : 6 ≤ g'.arcCap
  flags : g'.flags = g.flags
  undir : Undirected g'
  simple : IsSimple g'
  describes : Describes adj g'
  count : g'.M = (edgesOf n adj).length

theorem addAll_edgesOf {g : Graph} {n : Nat} (adj : Nat → Nat → Bool) (hr : Reach g) (hM : g.M = 0)
    (h6 : 6 ≤ g.arcCap) (hN : g.N = n) :
    ∃ g', addAll g (edgesOf n adj) = some (g', .ok) ∧ Decoded n adj g g' := by
  have hlen : (edgesOf n adj).length ≤ n * (n - 1) / 2 := by
    rw [← columnOffset_eq, ← cells_length]
    unfold edgesOf
    rw [List.length_map]
    exact List.length_filter_le _ _
  obtain ⟨g', h1, h2, h3, h4, h5, h6, h7, h8⟩ := addAll_spec (edgesOf n adj) hr h6 (by
    rintro ⟨u, v⟩ hp
    have := edgesOf_mem.1 hp
    unfold IsVertex
    simp only
    omega) (by rw [hM, hN]; omega)
  have hnb : ∀ w, IsVertex g' w → neighbors g' w = some ((edgesOf n adj).foldl (addFront w) []) := by
    intro w hw
    have : IsVertex g w := by unfold IsVertex at *; rw [← h3]; exact hw
    exact h7 w [] this (neighbors_empty hr hM this)
  have hmem : ∀ w x, x ∈ (edgesOf n adj).foldl (addFront w) [] ↔ (w, x) ∈ edgesOf n adj ∨ (x, w) ∈ edgesOf n adj := by
    intro w x; rw [foldl_addFront_mem]; simp
  refine ⟨g', h1, h2, by rw [h3, hN], h5, h6, h8 (undirected_empty hr hM), ?_, ?_, by rw [h4, hM]; simp⟩
  · intro w hw
    refine ⟨_, hnb w hw, ?_, ?_, ?_, ?_⟩
    · refine foldl_addFront_nodup _ _ (by simp) (edgesOf_nodup n adj) ?_ (by simp)
      rintro ⟨a, b⟩ hp; exact (edgesOf_mem.1 hp).2.1
    · rw [hmem]
      rintro (h | h) <;> (have := (edgesOf_mem.1 h).2.1; omega)
    · intro x hx
      rw [hmem] at hx
      rw [h3, hN]
      rcases hx with h | h <;> (have := edgesOf_mem.1 h; omega)
    · intro hlt
      apply List.eq_nil_iff_forall_not_mem.2
      intro x hx
      rw [hmem] at hx
      rw [h3, hN] at hlt
      rcases hx with h | h <;> (have := edgesOf_mem.1 h; omega)
  · intro i j hij hj
    have hw : IsVertex g' (i + 1) := by unfold IsVertex; omega
    unfold Adjacent
    rw [hnb _ hw]
    have : (∃ l, some ((edgesOf n adj).foldl (addFront (i + 1)) []) = some l ∧ j + 1 ∈ l) ↔
        j + 1 ∈ (edgesOf n adj).foldl (addFront (i + 1)) [] := by simp
    rw [this, hmem, edgesOf_mem, edgesOf_mem]
    rw [h3, hN] at hj
    simp only [Nat.add_sub_cancel]
    constructor
    · intro h; left; exact ⟨by omega, by omega, by omega, h⟩
    · rintro (h | h)
      · exact h.2.2.2
      · omega

/-! ### Validation -/

theorem flat_length : ∀ s : List Int, (s.flatMap charBits).length = 6 * s.length
  | [] => rfl
  | c :: s => by
    rw [List.flatMap_cons, List.length_append, flat_length s]
    simp [charBits]; omega

theorem char_cases {P : Int → Prop} (h : ∀ v : Fin 64, P ((v.val : Int) + 63)) {c : Int} (h1 : 63 ≤ c)
    (h2 : c ≤ 126) : P c := by
  have := h ⟨(c - 63).toNat, by omega⟩
  simp only at this
  rw [show (((c - 63).toNat : Nat) : Int) + 63 = c by omega] at this
  exact this

theorem sixes_char {c : Int} (h1 : 63 ≤ c) (h2 : c ≤ 126) (t : List Bool) :
    sixes (charBits c ++ t) = c.toNat :: sixes t := by
  have key : ∀ v : Fin 64, ∃ a b c d e f : Bool, charBits ((v.val : Int) + 63) = [a, b, c, d, e, f] ∧
      32 * a.toNat + 16 * b.toNat + 8 * c.toNat + 4 * d.toNat + 2 * e.toNat + f.toNat + 63 = v.val + 63 := by
    decide +kernel
  obtain ⟨a, b, c', d, e, f, hb, hv⟩ := key ⟨(c - 63).toNat, by omega⟩
  simp only at hb hv
  rw [show (((c - 63).toNat : Nat) : Int) + 63 = c by omega] at hb
  rw [hb]
  show _ :: sixes t = _
  rw [hv]
  congr 1
  omega

theorem sixes_flat : ∀ s : List Int, (∀ c ∈ s, 63 ≤ c ∧ c ≤ 126) → chars (sixes (s.flatMap charBits)) = s
  | [], _ => rfl
  | c :: s, h => by
    have hc := h c (by simp)
    have := sixes_flat s (fun d hd => h d (by simp [hd]))
    rw [List.flatMap_cons, sixes_char hc.1 hc.2]
    unfold chars at *
    rw [List.map_cons, this]
    congr 1
    simp only [Int.ofNat_eq_natCast]; omega

theorem paddingZero_char {c : Int} (h1 : 63 ≤ c) (h2 : c ≤ 126) {p : Nat} (hp : p < 6) :
    paddingZero (c - 63).toNat p = ((charBits c).drop (6 - p)).all (!·) := by
  have key : ∀ v : Fin 64, ∀ p : Fin 6, paddingZero (((v.val : Int) + 63) - 63).toNat p.val =
      ((charBits ((v.val : Int) + 63)).drop (6 - p.val)).all (!·) := by decide +kernel
  exact char_cases (P := fun c => paddingZero (c - 63).toNat p = ((charBits c).drop (6 - p)).all (!·))
    (fun v => key v ⟨p, hp⟩) h1 h2

theorem paddingZero_last {s : List Int} (h : ∀ c ∈ s, 63 ≤ c ∧ c ≤ 126) {p : Nat} (hp : p < 6)
    (hs : p ≤ 6 * s.length) :
    paddingZero ((s.getD (s.length - 1) 63) - 63).toNat p =
      ((s.flatMap charBits).drop (6 * s.length - p)).all (!·) := by
  rcases List.eq_nil_or_concat s with rfl | ⟨i, c, rfl⟩
  · have : p = 0 := by simpa using hs
    subst this; rfl
  · have hc := h c (by simp)
    rw [List.concat_eq_append]
    have e1 : (i ++ [c]).getD ((i ++ [c]).length - 1) 63 = c := by simp
    rw [e1, paddingZero_char hc.1 hc.2 hp, List.flatMap_append]
    have e2 : 6 * (i ++ [c]).length - p = (i.flatMap charBits).length + (6 - p) := by
      rw [flat_length]; simp; omega
    rw [e2, List.drop_length_add_append]
    simp

theorem validate_iff {n m off : Nat} (hn : n ≤ 46341) (hm : numCharsEnc n = some m) (s : List Int)
    (hoff : off + m ≠ 0) :
    validate s off n m = some .ok ↔ ∃ x : List Bool, x.length = columnOffset n ∧ s = chars (bitText x) := by
  obtain ⟨e1, e2⟩ := numCharsEnc_eq hn
  have hcol : columnOffset n < 2 ^ 30 := by
    rw [columnOffset_eq]
    have : n * (n - 1) ≤ 46341 * 46340 := Nat.mul_le_mul hn (by omega)
    omega
  have hm' : m = columnOffset n / 6 + if columnOffset n % 6 ≠ 0 then 1 else 0 := by
    rw [hm] at e1; simpa using e1
  have hm6 : columnOffset n ≤ 6 * m ∧ 6 * m < columnOffset n + 6 := by
    rw [hm']; split <;> omega
  have hpad : padding n m = some (m * 6 - columnOffset n) := by
    simp only [padding, e2, Option.bind_eq_bind, Option.bind_some]
    rw [if_pos (by omega)]; rfl
  unfold validate
  rw [hm]
  simp only [Option.bind_eq_bind, Option.bind_some, hpad, if_neg hoff]
  constructor
  · intro h
    by_cases hl : m ≠ s.length
    · rw [if_pos hl] at h; simp at h
    · rw [if_neg hl] at h
      rw [ne_eq, Decidable.not_not] at hl
      rw [hl, List.take_length] at h
      by_cases hr : (s.any fun c => decide (c < 63) || decide (c > 126)) = true
      · rw [if_pos hr] at h; simp at h
      · rw [if_neg hr] at h
        have hr' : ∀ c ∈ s, 63 ≤ c ∧ c ≤ 126 := by
          intro c hc
          simp only [List.any_eq_true, not_exists, not_and, Bool.or_eq_true, decide_eq_true_eq] at hr
          have := hr c hc; omega
        have hz : paddingZero ((s.getD (s.length - 1) 63) - 63).toNat (s.length * 6 - columnOffset n) = true := by
          by_contra hc
          rw [if_neg hc] at h; simp at h
        rw [paddingZero_last hr' (by omega) (by omega)] at hz
        rw [show 6 * s.length - (s.length * 6 - columnOffset n) = columnOffset n by omega] at hz
        refine ⟨(s.flatMap charBits).take (columnOffset n), by rw [List.length_take, flat_length]; omega, ?_⟩
        rw [bitText, List.length_take, flat_length, Nat.min_eq_left (by omega)]
        have hd : (s.flatMap charBits).drop (columnOffset n) =
            List.replicate ((6 - columnOffset n % 6) % 6) false := by
          rw [List.eq_replicate_iff]
          refine ⟨by rw [List.length_drop, flat_length]; omega, fun b hb => ?_⟩
          have := List.all_eq_true.1 hz b hb
          simpa using this
        rw [← hd, List.take_append_drop, sixes_flat s hr']
  · rintro ⟨x, hx, rfl⟩
    have hlen : (chars (bitText x)).length = m := by
      simp only [chars, List.length_map]
      rw [bitText_eq, List.length_map, List.length_range, hx, hm']
    have hr' : ∀ c ∈ chars (bitText x), 63 ≤ c ∧ c ≤ 126 := by
      intro c hc
      obtain ⟨d, hd, rfl⟩ := List.mem_map.1 hc
      have := bitText_range x d hd
      simp only [Int.ofNat_eq_natCast]; omega
    rw [if_neg (by rw [hlen]; simp), if_neg, if_pos]
    · rw [← hlen, paddingZero_last hr' (by omega) (by omega), hlen]
      rw [show 6 * m - (m * 6 - columnOffset n) = columnOffset n by omega]
      have : (chars (bitText x)).flatMap charBits = x ++ List.replicate ((6 - x.length % 6) % 6) false := by
        unfold chars bitText
        exact sixes_bits _ _ (pad_length x)
      rw [this, ← hx, List.drop_left]
      simp
    · simp only [List.any_eq_true, not_exists, not_and, Bool.or_eq_true, decide_eq_true_eq]
      intro c hc
      have := hr' c (List.mem_of_mem_take hc)
      omega

/-! ### Lines -/

/-- Characters a graph6 line consists of. -/
def Printable (s : List Int) : Prop := ∀ c ∈ s, 63 ≤ c ∧ c ≤ 126

theorem printable_bitText (x : List Bool) : Printable (chars (bitText x)) := by
  intro c hc
  obtain ⟨d, hd, rfl⟩ := List.mem_map.1 hc
  have := bitText_range x d hd
  simp only [Int.ofNat_eq_natCast]; omega

theorem printable_graph6 (n : Nat) (adj) : Printable (chars (graph6 n adj)) := by
  intro c hc
  obtain ⟨d, hd, rfl⟩ := List.mem_map.1 hc
  have : 63 ≤ d ∧ d ≤ 126 := by
    rcases List.mem_append.1 hd with h | h
    · exact orderText_range d h
    · exact bitText_range _ d h
  simp only [Int.ofNat_eq_natCast]; omega

theorem cutAfter_append {d : Int} {t : List Int} : ∀ {s : List Int}, d ∉ s →
    cutAfter d (s ++ d :: t) = s ++ [d]
  | [], _ => by simp [cutAfter]
  | c :: s, h => by
    have h' : c ≠ d ∧ d ∉ s := by
      simp only [List.mem_cons, not_or] at h; exact ⟨fun e => h.1 e.symm, h.2⟩
    rw [List.cons_append, cutAfter, if_neg h'.1, cutAfter_append h'.2]; rfl

theorem cutAfter_none {d : Int} : ∀ {s : List Int}, d ∉ s → cutAfter d s = s
  | [], _ => rfl
  | c :: s, h => by
    have h' : c ≠ d ∧ d ∉ s := by
      simp only [List.mem_cons, not_or] at h; exact ⟨fun e => h.1 e.symm, h.2⟩
    rw [cutAfter, if_neg h'.1, cutAfter_none h'.2]

/-- The line end itself. -/
def endOf : List Int → List Int
  | 13 :: 10 :: _ => [13, 10]
  | 10 :: _ => [10]
  | _ => []

theorem lineOf_eq {file : Bool} {count : Nat} {body tail t : List Int} (hb : Printable body)
    (he : LineEnd tail t) (hc : body.length + 2 ≤ count - 1) :
    ∃ z, lineOf file count (body ++ tail) = body ++ z ∧ tail = z ++ t ∧ (z = [] ∨ z = [10] ∨ z = [13, 10]) := by
  have n10 : (10 : Int) ∉ body := fun h => by have := hb _ h; omega
  have n13 : (13 : Int) ∉ body := fun h => by have := hb _ h; omega
  cases he with
  | eof =>
    refine ⟨[], ?_, rfl, Or.inl rfl⟩
    unfold lineOf
    rw [List.append_nil, List.take_of_length_le (by omega)]
    simp only [cutAfter_none n10, cutAfter_none n13, ite_self]
  | lf t =>
    refine ⟨[10], ?_, rfl, Or.inr (Or.inl rfl)⟩
    unfold lineOf
    rw [List.take_append, List.take_of_length_le (by omega : body.length ≤ count - 1)]
    obtain ⟨m, hm⟩ : ∃ m, count - 1 - body.length = m + 1 := ⟨count - 1 - body.length - 1, by omega⟩
    rw [hm, List.take_succ_cons]
    have hm : (10 : Int) ∈ body ++ 10 :: t.take m := by simp
    simp only [cutAfter_append n10, if_pos hm, ite_self]
  | crlf t =>
    refine ⟨[13, 10], ?_, rfl, Or.inr (Or.inr rfl)⟩
    unfold lineOf
    rw [List.take_append, List.take_of_length_le (by omega : body.length ≤ count - 1)]
    obtain ⟨m, hm⟩ : ∃ m, count - 1 - body.length = m + 2 := ⟨count - 1 - body.length - 2, by omega⟩
    rw [hm, List.take_succ_cons, List.take_succ_cons]
    have e : body ++ 13 :: 10 :: t.take m = (body ++ [13]) ++ 10 :: t.take m := by simp
    have n10' : (10 : Int) ∉ body ++ [13] := by simp [n10]
    have hm : (10 : Int) ∈ (body ++ [13]) ++ 10 :: t.take m := by simp
    simp only [e, cutAfter_append n10', if_pos hm, ite_self]
    simp

theorem cutLine_eq {body z : List Int} (hb : Printable body) (hz : z = [] ∨ z = [10] ∨ z = [13, 10]) :
    cutLine (body ++ z) = body := by
  unfold cutLine
  rw [List.takeWhile_append_of_pos]
  · rcases hz with rfl | rfl | rfl <;> simp
  · intro c hc
    have := hb c hc
    simp; omega

theorem firstChar_eq {body z : List Int} (hb : Printable body) (hne : body ≠ []) :
    firstCharOk ((body ++ z).getD 0 0) = true := by
  obtain ⟨c, s, rfl⟩ := List.exists_cons_of_ne_nil hne
  have := hb c (by simp)
  simp only [List.cons_append, List.getD_cons_zero, firstCharOk]
  simp; omega

theorem fgets_line {file : Bool} {past body tail t : List Int} {count : Nat} (hb : Printable body) (hne : body ≠ [])
    (he : LineEnd tail t) (hc : body.length + 2 ≤ count - 1) :
    ∃ s past', fgets count ⟨file, past, body ++ tail⟩ = (some s, ⟨file, past', t⟩) ∧ cutLine s = body ∧
      firstCharOk (s.getD 0 0) = true := by
  obtain ⟨z, hl, ht, hz⟩ := lineOf_eq (file := file) hb he hc
  refine ⟨body ++ z, (body ++ z).reverse ++ past, ?_, cutLine_eq hb hz, firstChar_eq hb hne⟩
  unfold fgets
  simp only [List.append_eq_nil_iff, hne, false_and, if_false, hl]
  rw [ht, ← List.append_assoc, List.drop_left]

/-! ### The order and the start of the text -/

theorem order_value {n : Nat} (h : n < 262144) :
    (n / 4096 % 64) <<< 12 ||| (n / 64 % 64) <<< 6 ||| (n % 64) <<< 0 = n := by
  rw [show (n / 4096 % 64) <<< 12 = ((n / 4096 % 64) <<< 6) <<< 6 by rw [← Nat.shiftLeft_add],
    ← Nat.shiftLeft_or_distrib, ← Nat.shiftLeft_add_eq_or_of_lt (by omega : n / 64 % 64 < 2 ^ 6),
    Nat.shiftLeft_zero, ← Nat.shiftLeft_add_eq_or_of_lt (by omega : n % 64 < 2 ^ 6)]
  simp only [Nat.shiftLeft_eq]
  omega

theorem getOrder_eq {n : Nat} (hn : n ≤ 100000) (file : Bool) (past r : List Int) :
    ∃ past', getOrder ⟨file, past, chars (orderText n) ++ r⟩ = some (some n, ⟨file, past', r⟩) := by
  unfold orderText
  split
  · rename_i h
    refine ⟨((n + 63 : Nat) : Int) :: past, ?_⟩
    simp only [chars, List.map_cons, List.map_nil, List.cons_append, List.nil_append, getOrder, getc,
      Int.ofNat_eq_natCast]
    rw [if_neg (by omega), if_pos (by omega)]
    congr 3; omega
  · rename_i h
    have h1 : n / 4096 % 64 + 63 ≠ 126 := by omega
    refine ⟨((n % 64 + 63 : Nat) : Int) :: ((n / 64 % 64 + 63 : Nat) : Int) ::
      ((n / 4096 % 64 + 63 : Nat) : Int) :: 126 :: past, ?_⟩
    simp only [chars, List.map_cons, List.map_nil, List.cons_append, List.nil_append, getOrder, getc,
      Int.ofNat_eq_natCast]
    rw [if_pos (by rfl), if_neg (by omega)]
    have hu : ∀ (x : Int) (p q : List Int), ungetc x ⟨file, x :: p, q⟩ =
        (if file = true ∧ x = -1 then (-1, ⟨file, x :: p, q⟩) else (x, ⟨file, p, x :: q⟩)) := by
      intro x p q
      unfold ungetc
      cases file <;> simp
    rw [hu, if_neg (by omega)]
    have hs : ∀ (m k : Nat), shl63 ((m + 63 : Nat) : Int) k = some (m <<< k) := by
      intro m k
      unfold shl63
      rw [if_pos (by omega)]; congr 2; omega
    simp only [hs, Option.bind_eq_bind, Option.bind_some]
    have hv := order_value (by omega : n < 262144)
    rw [hv, if_neg (by omega)]
    rfl

theorem peek_eq {c : Int} (hc : c ≠ -1) (file : Bool) (past r : List Int) :
    peek ⟨file, past, c :: r⟩ = (some c, ⟨file, past, c :: r⟩) := by
  unfold peek getc ungetc
  cases file <;> simp [hc]

theorem orderText_cons (n : Nat) : ∃ c s, orderText n = c :: s ∧ 63 ≤ c ∧ c ≤ 126 := by
  unfold orderText
  split
  · exact ⟨_, _, rfl, by omega, by omega⟩
  · exact ⟨_, _, rfl, by omega, by omega⟩

theorem skipHeader_eq (n : Nat) (file : Bool) (past r hdr : List Int) (hh : hdr = [] ∨ hdr = chars header) :
    ∃ past', skipHeader ⟨file, past, hdr ++ (chars (orderText n) ++ r)⟩ =
      (⟨file, past', chars (orderText n) ++ r⟩, .ok) := by
  rcases hh with rfl | rfl
  · obtain ⟨c, s, hs, h1, h2⟩ := orderText_cons n
    refine ⟨past, ?_⟩
    simp only [List.nil_append, hs, chars, List.map_cons, List.cons_append, skipHeader, getc,
      Int.ofNat_eq_natCast]
    rw [if_neg (by omega), peek_eq (by omega)]
    simp only
    rw [if_neg (by omega)]
  · refine ⟨(chars header).reverse ++ past, ?_⟩
    simp only [chars, header, List.map_cons, List.map_nil, List.cons_append, List.nil_append, skipHeader, getc,
      Int.ofNat_eq_natCast]
    rw [if_neg (by decide), peek_eq (by decide)]
    simp only
    rw [if_pos (by decide)]
    simp [checkHeader, getcs, getc, header]

/-- The iterator at the start of the first line's adjacency bits. -/
def openIter (n m : Nat) (g : Graph) (i : Inp) : Iter :=
  { inp := i, numRead := 0, order := n, nOrd := (numCharsOrd n).toNat, nEnc := m,
    size := (numCharsOrd n).toNat + m + 3, g := g, active := true }

theorem begin_eq {n : Nat} (hn : n ≤ 46341) {t : Target} {g : Graph} (hg : prepare n t = some g) (file : Bool)
    (past r hdr : List Int) (hh : hdr = [] ∨ hdr = chars header) {m : Nat} (hm : numCharsEnc n = some m) :
    ∃ past', beginRead ⟨file, past, hdr ++ (chars (orderText n) ++ r)⟩ t =
      some (some (openIter n m g ⟨file, past', r⟩)) := by
  obtain ⟨p1, h1⟩ := skipHeader_eq n file past r hdr hh
  obtain ⟨c, s, hs, hc1, hc2⟩ := orderText_cons n
  obtain ⟨p2, h2⟩ := getOrder_eq (by omega : n ≤ 100000) file p1 r
  refine ⟨p2, ?_⟩
  unfold beginRead
  rw [h1]
  simp only
  have hp : peek ⟨file, p1, chars (orderText n) ++ r⟩ = (some (c : Int), ⟨file, p1, chars (orderText n) ++ r⟩) := by
    simp only [hs, chars, List.map_cons, List.cons_append, Int.ofNat_eq_natCast]
    exact peek_eq (by omega) _ _ _
  rw [hp]
  simp only
  have hf : firstCharOk (c : Int) = true := by
    unfold firstCharOk; simp; omega
  rw [hf, if_neg (by simp), h2]
  simp only [Option.bind_eq_bind, Option.bind_some, open', hg, hm, openIter]

theorem checkOrder_eq {n : Nat} (hn : n ≤ 100000) (r : List Int) :
    checkOrder (chars (orderText n) ++ r) n = some .ok := by
  unfold orderText
  split
  · rename_i h
    simp only [chars, List.map_cons, List.map_nil, List.cons_append, List.nil_append, checkOrder,
      List.getD_cons_zero, Int.ofNat_eq_natCast]
    rw [if_neg (by omega), if_pos (by omega), if_neg (by omega)]
  · rename_i h
    have h1 : n / 4096 % 64 + 63 ≠ 126 := by omega
    have h1' : n / 4096 % 64 + 63 ≤ 126 := by omega
    simp only [chars, List.map_cons, List.map_nil, List.cons_append, List.nil_append, checkOrder,
      List.getD_cons_zero, List.getD_cons_succ, Int.ofNat_eq_natCast]
    rw [if_pos (by rfl), if_neg (by omega), if_neg (by omega)]
    have hs : ∀ (m k : Nat), shl63 ((m + 63 : Nat) : Int) k = some (m <<< k) := by
      intro m k
      unfold shl63
      rw [if_pos (by omega)]; congr 2; omega
    simp only [hs, Option.bind_eq_bind, Option.bind_some]
    have hv := order_value (by omega : n < 262144)
    rw [hv, if_neg (by simp)]

/-! ### Reading with an open iterator -/

/-- An iterator opened for order `n`. -/
structure IterOk (n : Nat) (it : Iter) : Prop where
  order : it.order = n
  nOrd : it.nOrd = (numCharsOrd n).toNat
  nEnc : numCharsEnc n = some it.nEnc
  size : it.size = it.nOrd + it.nEnc + 3
  reach : Reach it.g
  gN : it.g.N = n
  cap : 6 ≤ it.g.arcCap
  active : it.active = true
  clean : it.numRead = 0 → it.g.M = 0

theorem orderText_length {n : Nat} (h1 : 1 ≤ n) (h2 : n ≤ 100000) :
    (orderText n).length = (numCharsOrd n).toNat := by
  unfold orderText numCharsOrd
  by_cases h : n ≤ 62
  · rw [if_pos h, if_pos (by omega)]; rfl
  · rw [if_neg h, if_neg (by omega), if_pos (by omega)]; rfl

theorem bitText_length {n m : Nat} (hn : n ≤ 46341) (hm : numCharsEnc n = some m) {x : List Bool}
    (hx : x.length = columnOffset n) : (bitText x).length = m := by
  have e1 := (numCharsEnc_eq hn).1
  rw [hm] at e1
  rw [bitText_eq, List.length_map, List.length_range, hx]
  simpa using e1.symm

theorem nEnc_pos {n m : Nat} (h2 : 2 ≤ n) (hn : n ≤ 46341) (hm : numCharsEnc n = some m) : 1 ≤ m := by
  have e1 := (numCharsEnc_eq hn).1
  rw [hm] at e1
  simp only [Option.some.injEq] at e1
  have h3 : 2 * 1 ≤ n * (n - 1) := Nat.mul_le_mul h2 (by omega)
  have := columnOffset_eq n
  rw [e1]
  split <;> omega

theorem again_spec {n : Nat} {it : Iter} (h : IterOk n it) :
    Reach (again (it.numRead = 0) it.g) ∧ (again (it.numRead = 0) it.g).M = 0 ∧
    (again (it.numRead = 0) it.g).N = n ∧ 6 ≤ (again (it.numRead = 0) it.g).arcCap := by
  unfold again
  by_cases h0 : it.numRead = 0
  · simp only [h0, decide_true, if_true]
    exact ⟨h.reach, h.clean h0, h.gN, h.cap⟩
  · simp only [h0, decide_false, Bool.false_eq_true, if_false]
    exact ⟨h.reach.reinit.flag _, rfl, h.gN, h.cap⟩

/-- The line the iterator expects next: the first line's order is already read. -/
def lineFor (it : Iter) (n : Nat) (adj : Nat → Nat → Bool) : List Int :=
  if it.numRead = 0 then chars (bitText (triangle n adj)) else chars (graph6 n adj)

theorem chars_append (a b : List Nat) : chars (a ++ b) = chars a ++ chars b := by simp [chars]

theorem chars_length (a : List Nat) : (chars a).length = a.length := by simp [chars]

theorem readLine_ok {n : Nat} {it : Iter} (hi : IterOk n it) (h2 : 2 ≤ n) (hn : n ≤ 46341) (adj : Nat → Nat → Bool)
    {s : List Int} (hf : firstCharOk (s.getD 0 0) = true) (hs : cutLine s = lineFor it n adj) :
    ∃ g, readLine it s = some ({ it with g, numRead := it.numRead + 1 }, .ok) ∧
      Decoded n adj (again (it.numRead = 0) it.g) g := by
  obtain ⟨a1, a2, a3, a4⟩ := again_spec hi
  obtain ⟨g, hg, hd⟩ := addAll_edgesOf adj a1 a2 a4 a3
  refine ⟨g, ?_, hd⟩
  have hlb : (bitText (triangle n adj)).length = it.nEnc := bitText_length hn hi.nEnc (triangle_length n adj)
  have hpos := nEnc_pos h2 hn hi.nEnc
  have hv : ∀ off, validate (chars (bitText (triangle n adj))) off n it.nEnc = some .ok := fun off =>
    (validate_iff hn hi.nEnc _ (by omega)).2 ⟨_, triangle_length n adj, rfl⟩
  unfold readLine
  rw [hf]
  simp only [hs]
  by_cases h0 : it.numRead = 0
  · simp only [h0, decide_true, lineFor, if_true] at hg ⊢
    rw [if_neg (by simp), if_neg (by rw [chars_length, hlb]; simp), List.drop_zero, hi.order, hv]
    simp only [checkOrder', if_true, Option.bind_eq_bind, Option.bind_some]
    rw [if_neg (by simp)]
    rw [decode_bitText _ (by omega) adj, hg]
    simp
  · simp only [h0, decide_false, lineFor, if_false] at hg ⊢
    have hol := orderText_length (n := n) (by omega) (by omega)
    have hgl : (chars (graph6 n adj)).length = it.nOrd + it.nEnc := by
      rw [chars_length, graph6, List.length_append, hlb, hol, hi.nOrd]
    have hdr : (chars (graph6 n adj)).drop it.nOrd = chars (bitText (triangle n adj)) := by
      rw [graph6, chars_append, hi.nOrd, ← hol, ← chars_length (orderText n), List.drop_left]
    rw [if_neg (by simp), if_neg (by rw [hgl]; simp), hi.order, hdr, hv]
    simp only [checkOrder', Bool.false_eq_true, if_false, graph6, chars_append]
    rw [checkOrder_eq (by omega)]
    simp only [Option.bind_eq_bind, Option.bind_some]
    rw [if_neg (by simp)]
    rw [if_neg (by simp)]
    rw [decode_bitText _ (by omega) adj, hg]
    simp

theorem readGraph_ok {n : Nat} {it : Iter} (hi : IterOk n it) (h2 : 2 ≤ n) (hn : n ≤ 46341) (adj : Nat → Nat → Bool)
    {tail t : List Int} (he : LineEnd tail t) (hr : it.inp.rest = lineFor it n adj ++ tail) :
    ∃ it', readGraph it = some (it', .ok) ∧ IterOk n it' ∧ it'.numRead = it.numRead + 1 ∧ it'.inp.rest = t ∧
      Decoded n adj (again (it.numRead = 0) it.g) it'.g := by
  have hlb : (bitText (triangle n adj)).length = it.nEnc := bitText_length hn hi.nEnc (triangle_length n adj)
  have hpos := nEnc_pos h2 hn hi.nEnc
  have hol := orderText_length (n := n) (by omega) (by omega)
  have hp : Printable (lineFor it n adj) := by
    unfold lineFor; split
    · exact printable_bitText _
    · exact printable_graph6 n adj
  have hlen : (lineFor it n adj).length ≤ it.nOrd + it.nEnc ∧ 0 < (lineFor it n adj).length := by
    unfold lineFor
    split
    · rw [chars_length, hlb]; omega
    · rw [chars_length, graph6, List.length_append, hlb, hol, hi.nOrd]; omega
  have hne : lineFor it n adj ≠ [] := List.ne_nil_of_length_pos hlen.2
  obtain ⟨s, past', hfg, hcut, hfirst⟩ := fgets_line (file := it.inp.file) (past := it.inp.past)
    (count := it.size) hp hne he (by rw [hi.size]; omega)
  have hinp : (⟨it.inp.file, it.inp.past, lineFor it n adj ++ tail⟩ : Inp) = it.inp := by
    rw [← hr]
  rw [hinp] at hfg
  let it0 : Iter := { it with inp := ⟨it.inp.file, past', t⟩ }
  have hi0 : IterOk n it0 := ⟨hi.order, hi.nOrd, hi.nEnc, hi.size, hi.reach, hi.gN, hi.cap, hi.active, hi.clean⟩
  obtain ⟨g, hg, hd⟩ := readLine_ok hi0 h2 hn adj hfirst hcut
  refine ⟨{ it0 with g, numRead := it0.numRead + 1 }, ?_, ?_, rfl, rfl, hd⟩
  · have : readGraph it = readLine it0 s := by
      unfold readGraph
      rw [if_neg (by simp [hi.active]), hfg]
    rw [this, hg]
  · exact ⟨hi.order, hi.nOrd, hi.nEnc, hi.size, hd.reach, hd.order, hd.cap, hi.active, fun h => by simp at h⟩

/-- Targets the reader can fill: not initialised, or initialised with the order of the text. -/
def TargetOk (n : Nat) : Target → Prop
  | .fresh cap => cap = 0 ∨ (6 ≤ cap ∧ cap % 2 = 0)
  | .ready g => Reach g ∧ g.N = n ∧ 6 ≤ g.arcCap

theorem prepare_ok {n : Nat} (hn : 1 ≤ n) {t : Target} (ht : TargetOk n t) :
    ∃ g, prepare n t = some g ∧ Reach g ∧ g.N = n ∧ g.M = 0 ∧ 6 ≤ g.arcCap ∧ g.flags &&& 8 = 8 := by
  cases t with
  | fresh cap =>
    refine ⟨setZeroBased (Graph.init n (if cap = 0 then 6 * n else cap)), ?_, ?_, rfl, rfl, ?_, by show (0 ||| 8) &&& 8 = 8; decide⟩
    · simp only [prepare]; rw [if_neg (by omega)]
    · refine Reach.flag _ (Reach.init n _ hn ?_)
      unfold TargetOk at ht
      split <;> omega
    · show 6 ≤ (if cap = 0 then 6 * n else cap)
      unfold TargetOk at ht
      split <;> omega
  | ready g =>
    refine ⟨setZeroBased g.reinit, ?_, ht.1.reinit.flag _, ht.2.1, rfl, ht.2.2, ?_⟩
    · simp only [prepare]; rw [if_neg (by have := ht.2.1; omega)]
    · show (g.reinit.flags ||| 8) &&& 8 = 8
      rw [Nat.and_comm, Nat.and_or_distrib_left]
      apply Nat.eq_of_testBit_eq
      intro i
      simp only [Nat.testBit_or, Nat.testBit_and, Bool.and_self]
      cases (8 : Nat).testBit i <;> simp

end Verif.Props
