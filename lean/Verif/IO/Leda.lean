import Verif.IO.Matrix
import Verif.Random.Lemmas
import Mathlib.Data.List.TakeWhile
import Verif.Spec.Text

/-
The LEDA format: the lines of a text, the numbers in them, and the graph made from the edges.
-/
namespace Verif.Text
open Verif Verif.Graph Verif.SB Verif.Props

variable {n : Nat}

/-- The ends of an edge, the smaller first. -/
def srt (p : Nat × Nat) : Nat × Nat := (min p.1 p.2, max p.1 p.2)

theorem srt_eq {p q : Nat × Nat} (h : srt p = srt q) : p = q ∨ p = (q.2, q.1) := by
  obtain ⟨a, b⟩ := p
  obtain ⟨c, d⟩ := q
  simp only [srt, Prod.mk.injEq] at h ⊢
  omega

/-- The graph with the edges `L` added, each only once. -/
structure Gathered (n : Nat) (L : List (Nat × Nat)) (g : Graph) : Prop where
  reach : Reach g
  order : g.N = n
  cap : 6 ≤ g.arcCap
  undir : Undirected g
  count : g.M = L.length
  nbrs : ∀ w, IsVertex g w → ∃ l, neighbors g w = some l ∧ l.Nodup ∧ ∀ x, x ∈ l ↔ (w, x) ∈ L ∨ (x, w) ∈ L
  nodup : (L.map srt).Nodup
  range : ∀ p ∈ L, 1 ≤ p.1 ∧ p.1 ≤ n ∧ 1 ≤ p.2 ∧ p.2 ≤ n ∧ p.1 ≠ p.2

theorem Gathered.init (hn : 1 ≤ n) : Gathered n [] (Graph.init n (6 * n)) := by
  have hr := Reach.init n (6 * n) (by omega) (by omega)
  exact ⟨hr, rfl, by show 6 ≤ 6 * n; omega, undirected_empty hr rfl, rfl,
    fun w hw => ⟨[], neighbors_empty hr rfl hw, by simp, by simp⟩, by simp, by simp⟩

theorem Gathered.adjacent {L : List (Nat × Nat)} {g : Graph} (h : Gathered n L g) {u v : Nat} (hu : IsVertex g u) :
    Adjacent g u v ↔ (u, v) ∈ L ∨ (v, u) ∈ L := by
  obtain ⟨l, h1, -, h3⟩ := h.nbrs u hu
  rw [← h3]
  constructor
  · rintro ⟨l', k1, k2⟩
    rw [h1] at k1
    cases k1
    exact k2
  · exact fun hm => ⟨l, h1, hm⟩

theorem Gathered.simple {L : List (Nat × Nat)} {g : Graph} (h : Gathered n L g) : IsSimple g := by
  intro w hw
  obtain ⟨l, h1, h2, h3⟩ := h.nbrs w hw
  refine ⟨l, h1, h2, ?_, ?_, ?_⟩
  · rw [h3]
    rintro (hc | hc) <;> exact (h.range _ hc).2.2.2.2 rfl
  · intro x hx
    rw [h.order]
    rcases (h3 x).1 hx with hc | hc
    · exact (h.range _ hc).2.2.2.1
    · exact (h.range _ hc).2.1
  · intro hlt
    rw [h.order] at hlt
    apply List.eq_nil_iff_forall_not_mem.2
    intro x hx
    rcases (h3 x).1 hx with hc | hc <;> (have := h.range _ hc; simp only at this; omega)

/-- One more edge. -/
theorem Gathered.add {L : List (Nat × Nat)} {g : Graph} (h : Gathered n L g) {u v : Nat} (hu : 1 ≤ u ∧ u ≤ n) (hv : 1 ≤ v ∧ v ≤ n)
    (huv : u ≠ v) (hno : ¬ ((u, v) ∈ L ∨ (v, u) ∈ L)) :
    ∃ g', g.dynamicAddEdge (u : Nat) 0 (v : Nat) 0 {} = some (g', .ok) ∧ Gathered n (L ++ [(u, v)]) g' := by
  have hnd : ((L ++ [(u, v)]).map srt).Nodup := by
    rw [List.map_append, List.nodup_append]
    refine ⟨h.nodup, by simp, ?_⟩
    intro a ha b hb hc
    obtain ⟨p, hp, rfl⟩ := List.mem_map.1 ha
    simp only [List.map_cons, List.map_nil, List.mem_singleton] at hb
    rw [hb] at hc
    rcases srt_eq hc with hc | hc
    · exact hno (Or.inl (hc ▸ hp))
    · exact hno (Or.inr (hc ▸ hp))
  have hrg : ∀ p ∈ L ++ [(u, v)], 1 ≤ p.1 ∧ p.1 ≤ n ∧ 1 ≤ p.2 ∧ p.2 ≤ n ∧ p.1 ≠ p.2 := by
    intro p hp
    rcases List.mem_append.1 hp with hp | hp
    · exact h.range p hp
    · simp only [List.mem_singleton] at hp; subst hp; exact ⟨hu.1, hu.2, hv.1, hv.2, huv⟩
  have hlen := Built.length (n := n) hnd (by
    intro q hq
    obtain ⟨p, hp, rfl⟩ := List.mem_map.1 hq
    have := hrg p hp
    simp only [srt]
    omega)
  rw [List.length_map] at hlen
  obtain ⟨g', a1, a2, a3, a4, a5, a6, a7, a8⟩ := addAll_spec [(u, v)] h.reach h.cap (by
    intro p hp
    simp only [List.mem_singleton] at hp; subst hp
    unfold IsVertex; rw [h.order]; constructor <;> constructor <;> simp only <;> omega) (by
    rw [h.count, h.order]; simpa using hlen)
  refine ⟨g', ?_, a2, by rw [a3, h.order], a5, a8 h.undir, by rw [a4, h.count]; simp, ?_, hnd, hrg⟩
  · simp only [addAll, Option.bind_eq_bind] at a1
    cases hd : g.dynamicAddEdge (u : Nat) 0 (v : Nat) 0 {} with
    | none => rw [hd] at a1; simp at a1
    | some p =>
      obtain ⟨g2, r⟩ := p
      rw [hd] at a1
      simp only [Option.bind_some, ite_not] at a1
      by_cases hr : r = .ok
      · subst hr; simp at a1; rw [a1]
      · rw [if_neg hr] at a1; simp at a1; exact absurd a1.2 hr
  · intro w hw
    have hw' : IsVertex g w := by unfold IsVertex at *; rw [← a3]; exact hw
    obtain ⟨l, h1, h2, h3⟩ := h.nbrs w hw'
    refine ⟨_, a7 w _ hw' h1, ?_, ?_⟩
    · simp only [List.foldl_cons, List.foldl_nil]
      unfold addFront addNbr insAt
      by_cases k1 : w = u
      · have k2 : w ≠ v := by omega
        subst k1
        simp only [k2, if_true, if_false]
        exact List.nodup_cons.2 ⟨fun hb => hno ((h3 v).1 hb), h2⟩
      · by_cases k2 : w = v
        · subst k2
          simp only [k1, if_true, if_false]
          exact List.nodup_cons.2 ⟨fun hb => hno ((h3 u).1 hb).symm, h2⟩
        · simpa [k1, k2] using h2
    · intro x
      rw [foldl_addFront_mem, h3]
      simp only [List.mem_append]
      tauto

/-- One edge of the file. -/
theorem ledaEdge_spec {L : List (Nat × Nat)} {g : Graph} (h : Gathered n L g) {u v : Nat} (hu : 1 ≤ u ∧ u ≤ n) (hv : 1 ≤ v ∧ v ≤ n) :
    ∃ g' L', ledaEdge g (u : Nat) (v : Nat) = some (g', .ok) ∧ Gathered n L' g' ∧
      ∀ a b, ((a, b) ∈ L' ∨ (b, a) ∈ L') ↔ ((a, b) ∈ L ∨ (b, a) ∈ L) ∨ (a ≠ b ∧ ((a, b) = (u, v) ∨ (b, a) = (u, v))) := by
  unfold ledaEdge
  by_cases huv : u = v
  · subst huv
    rw [if_pos rfl]
    refine ⟨g, L, rfl, h, ?_⟩
    intro a b
    simp only [Prod.mk.injEq]
    constructor
    · exact Or.inl
    · rintro (h | ⟨h1, h2⟩)
      · exact h
      · omega
  · rw [if_neg (by omega)]
    have hgu : IsVertex g u := by unfold IsVertex; rw [h.order]; omega
    obtain ⟨b, hb1, hb2⟩ := Verif.Random.isNeighbor_adjacent h.reach h.undir hgu v
    have hnb : isNbr g (u : Nat) (v : Nat) = some b := by
      unfold isNbr
      rw [if_neg (by omega), if_neg (by omega)]
      exact hb1
    rw [hnb]
    rw [h.adjacent hgu] at hb2
    simp only [Option.bind_eq_bind, Option.bind_some]
    by_cases hb : b = true
    · rw [if_pos hb]
      refine ⟨g, L, rfl, h, ?_⟩
      have := hb2.1 hb
      intro a b
      simp only [Prod.mk.injEq]
      constructor
      · exact Or.inl
      · rintro (h | ⟨-, ⟨rfl, rfl⟩ | ⟨rfl, rfl⟩⟩)
        · exact h
        · exact this
        · exact this.symm
    · rw [if_neg hb]
      obtain ⟨g', h1, h2⟩ := h.add hu hv huv fun hc => hb (hb2.2 hc)
      refine ⟨g', _, h1, h2, ?_⟩
      intro a b
      simp only [List.mem_append, List.mem_singleton, Prod.mk.injEq]
      have : ((a = u ∧ b = v) ∨ (b = u ∧ a = v)) → a ≠ b := by omega
      tauto

/-! ## Lines -/

/-- `fgets` reads a line. -/
theorem fgets_whole {l : List Nat} (hl : IsLine l) (line : Option (List Nat)) (s : List Nat) :
    fgets line (l ++ 10 :: s) = (some (l ++ [10]), s) := by
  obtain ⟨h1, h2, h3⟩ := hl
  have ht : (l ++ 10 :: s).take 254 = l ++ 10 :: s.take (253 - l.length) := by
    rw [List.take_append, List.take_of_length_le (by omega), show 254 - l.length = (253 - l.length) + 1 by omega, List.take_succ_cons]
  have hc : lineChars (l ++ 10 :: s) = l ++ [10] := by
    unfold lineChars
    rw [ht, if_pos (by simp), List.takeWhile_append_of_pos (by
      intro c hc
      simp only [ne_eq, decide_eq_true_eq]
      rintro rfl
      exact h2 hc)]
    simp
  unfold fgets
  rw [if_neg (by simp), hc]
  congr 1
  · congr 1
    refine List.takeWhile_eq_self_iff.2 ?_
    intro c hc
    simp only [ne_eq, decide_eq_true_eq]
    rintro rfl
    simp only [List.mem_append, List.mem_singleton] at hc
    rcases hc with hc | hc
    · exact h3 hc
    · omega
  · rw [show l ++ 10 :: s = (l ++ [10]) ++ s by simp]
    exact List.drop_left

theorem fgetsMany_lines : ∀ (ls : List (List Nat)) (line : Option (List Nat)) (s : List Nat), (∀ l ∈ ls, IsLine l) →
    ∃ b, fgetsMany ls.length line (ls.flatMap (· ++ [10]) ++ s) = (b, s)
  | [], line, s, _ => ⟨line, rfl⟩
  | l :: ls, line, s, h => by
    have hs : (l :: ls).flatMap (· ++ [10]) ++ s = l ++ 10 :: (ls.flatMap (· ++ [10]) ++ s) := by simp
    rw [hs, List.length_cons]
    unfold fgetsMany
    rw [fgets_whole (h l (by simp))]
    exact fgetsMany_lines ls _ s fun l hl => h l (by simp [hl])

/-! ## Numbers -/

theorem gap_space {p : List Nat} (h : IsGap p) : ∀ c ∈ p, isSpace c = true := by
  intro c hc
  rw [isSpace_iff]
  have := h c hc
  omega

theorem ends_digit {r : List Nat} (h : EndsNumeral r) : isDigit ((r ++ [10]).headD 0) = false := by
  cases r with
  | nil => rfl
  | cons c r =>
    have := h c (by simp)
    simp only [List.cons_append, List.headD_cons]
    cases hd : isDigit c
    · rfl
    · exact absurd (isDigit_iff.1 hd) this

theorem scanInt_numeral {p d r : List Nat} {x : Nat} (hp : IsGap p) (hd : IsNumeral x d) (hr : isDigit (r.headD 0) = false)
    (hx : x < 2147483648) : scanInt (p ++ (d ++ r)) = some (r, some (x : Int)) := by
  obtain ⟨h1, h2, h3⟩ := hd
  have h2' : ∀ c ∈ d, isDigit c = true := fun c hc => isDigit_iff.2 (h2 c hc)
  obtain ⟨c, l, rfl⟩ := List.exists_cons_of_ne_nil h1
  have hc := h2 c (by simp)
  have hs : isSpace c = false := by
    cases h : isSpace c
    · rfl
    · rw [isSpace_iff] at h; omega
  have k1 : (p ++ ((c :: l) ++ r)).dropWhile isSpace = (c :: l) ++ r := by rw [dropWhile_spaces (gap_space hp)]; simp [hs]
  have k2 := takeWhile_digits (l := c :: l) (r := r) h2' hr
  unfold scanInt
  rw [k1, List.cons_append, sign_digit (isDigit_iff.2 hc)]
  rw [List.cons_append] at k2
  simp only [k2.1, k2.2]
  have h3' : digitsVal (c :: l) = x := h3
  rw [h3']
  rw [if_neg (by simp)]
  unfold ckInt
  rw [if_pos (by omega)]
  rfl

theorem scanOne_line {x : Nat} {l : List Nat} (h : NumberLine x l) (hx : x < 2147483648) :
    scanOne (some (l ++ [10])) = some (some (x : Int)) := by
  obtain ⟨p, d, r, rfl, h1, h2, h3⟩ := h
  unfold scanOne
  have : p ++ (d ++ r) ++ [10] = p ++ (d ++ (r ++ [10])) := by simp
  rw [this]
  simp [scanInt_numeral h1 h2 (ends_digit h3) hx]

theorem scanTwo_line {e : Nat × Nat} {l : List Nat} (h : EdgeLine e l) (h1 : e.1 < 2147483648) (h2 : e.2 < 2147483648)
    (u v : Option Int) : scanTwo (some (l ++ [10])) u v = some (some (e.1 : Int), some (e.2 : Int)) := by
  obtain ⟨p, d, q, d', r, rfl, k1, k2, k3, k4, k5, k6⟩ := h
  unfold scanTwo
  have : p ++ (d ++ (q ++ (d' ++ r))) ++ [10] = p ++ (d ++ (q ++ (d' ++ (r ++ [10])))) := by simp
  rw [this]
  have hq : isDigit ((q ++ (d' ++ (r ++ [10]))).headD 0) = false := by
    obtain ⟨c, l, rfl⟩ := List.exists_cons_of_ne_nil k3
    have := k4 c (by simp)
    simp only [List.cons_append, List.headD_cons]
    cases hd : isDigit c
    · rfl
    · have := isDigit_iff.1 hd; omega
  simp [scanInt_numeral k1 k2 hq h1, scanInt_numeral k4 k5 (ends_digit k6) h2]

/-! ## The reader -/

theorem ledaEdges_spec : ∀ {es : List (Nat × Nat)} {edges : List (List Nat)}, List.Forall₂ EdgeLine es edges →
    ∀ {L : List (Nat × Nat)} {g : Graph}, Gathered n L g → n < 2147483648 →
    (∀ l ∈ edges, IsLine l) → (∀ e ∈ es, (1 ≤ e.1 ∧ e.1 ≤ n) ∧ 1 ≤ e.2 ∧ e.2 ≤ n) → ∀ (line : Option (List Nat)) (rest : List Nat) (u v : Option Int),
    ∃ g' L', ledaEdges es.length line (edges.flatMap (· ++ [10]) ++ rest) u v g = some (g', .ok) ∧ Gathered n L' g' ∧
      ∀ a b, ((a, b) ∈ L' ∨ (b, a) ∈ L') ↔ ((a, b) ∈ L ∨ (b, a) ∈ L) ∨ (a ≠ b ∧ ((a, b) ∈ es ∨ (b, a) ∈ es))
  | _, _, .nil, L, g, h, _, _, _, line, rest, u, v => ⟨g, L, rfl, h, by simp⟩
  | _, _, .cons (a := e) (b := l) (l₁ := es) (l₂ := edges) he hes, L, g, h, hn, hl, hr, line, rest, u, v => by
    have hs : (l :: edges).flatMap (· ++ [10]) ++ rest = l ++ 10 :: (edges.flatMap (· ++ [10]) ++ rest) := by simp
    have hre := hr e (by simp)
    obtain ⟨g1, L1, a1, a2, a3⟩ := ledaEdge_spec h hre.1 hre.2
    obtain ⟨g', L', b1, b2, b3⟩ := ledaEdges_spec hes a2 hn (fun l hl' => hl l (by simp [hl'])) (fun e he' => hr e (by simp [he']))
      (some (l ++ [10])) rest (some (e.1 : Int)) (some (e.2 : Int))
    refine ⟨g', L', ?_, b2, ?_⟩
    · rw [hs, List.length_cons]
      unfold ledaEdges
      rw [fgets_whole (hl l (by simp)), scanTwo_line he (by omega) (by omega)]
      simp only [Option.bind_eq_bind, Option.bind_some, a1, ne_eq, not_true_eq_false, if_false]
      exact b1
    · intro a b
      rw [b3, a3]
      simp only [List.mem_cons]
      tauto

/-- The first line tells that the format is LEDA. -/
theorem ledaLine_detect {l : List Nat} (hl : IsLine l) (hmark : "LEDA.GRAPH".toList.map Char.toNat <+: l) (t : List Nat) :
    ∃ x, firstLine (l ++ 10 :: t) = some x ∧ detect x = .leda := by
  refine ⟨l ++ [10], ?_, ?_⟩
  · have := congrArg Prod.fst (fgets_whole hl none t)
    unfold fgets at this
    rw [if_neg (by simp)] at this
    unfold firstLine
    rw [if_neg (by simp)]
    exact this
  · unfold detect
    rw [if_pos]
    exact List.IsPrefix.trans hmark (List.prefix_append _ _)

/-- The reader on a LEDA text. -/
theorem readLeda_spec {es : List (Nat × Nat)} {s : List Nat} (h : LedaText n es s) (hn : 1 ≤ n) (hn' : n < 2147483648)
    (hm : es.length < 2147483648) (hr : ∀ e ∈ es, (1 ≤ e.1 ∧ e.1 ≤ n) ∧ 1 ≤ e.2 ∧ e.2 ≤ n) :
    (∃ x, firstLine s = some x ∧ detect x = .leda) ∧
    ∃ p L, readLeda s = some (some p, .ok) ∧ Gathered n L p.g ∧
      ∀ a b, ((a, b) ∈ L ∨ (b, a) ∈ L) ↔ a ≠ b ∧ ((a, b) ∈ es ∨ (b, a) ∈ es) := by
  obtain ⟨l1, l2, l3, ln, nodes, lm, edges, rest, rfl, hl, hmark, h1, h2, h3, h4⟩ := h
  have hs : ([l1, l2, l3, ln] ++ nodes ++ [lm] ++ edges).flatMap (· ++ [10]) ++ rest =
      l1 ++ 10 :: (l2 ++ 10 :: (l3 ++ 10 :: (ln ++ 10 :: (nodes.flatMap (· ++ [10]) ++ (lm ++ 10 :: (edges.flatMap (· ++ [10]) ++ rest)))))) := by
    simp
  rw [hs]
  have hl1 := hl l1 (by simp)
  constructor
  · exact ledaLine_detect hl1 hmark _
  · have e4 : fgetsMany 4 none (l1 ++ 10 :: (l2 ++ 10 :: (l3 ++ 10 :: (ln ++ 10 :: (nodes.flatMap (· ++ [10]) ++ (lm ++ 10 :: (edges.flatMap (· ++ [10]) ++ rest))))))) =
        (some (ln ++ [10]), nodes.flatMap (· ++ [10]) ++ (lm ++ 10 :: (edges.flatMap (· ++ [10]) ++ rest))) := by
      simp only [fgetsMany, fgets_whole hl1, fgets_whole (hl l2 (by simp)), fgets_whole (hl l3 (by simp)), fgets_whole (hl ln (by simp))]
    obtain ⟨b, hb⟩ := fgetsMany_lines nodes (some (ln ++ [10])) (lm ++ 10 :: (edges.flatMap (· ++ [10]) ++ rest)) fun l h => hl l (by simp [h])
    rw [h2] at hb
    obtain ⟨g', L', b1, b2, b3⟩ := ledaEdges_spec h4 (Gathered.init hn) hn' (fun l h => hl l (by simp [h])) hr (some (lm ++ [10])) rest none
      (some ((n + 1 : Nat) : Int))
    refine ⟨({ g := Graph.init n (6 * n) } : PGraph).setG g', L', ?_, b2, ?_⟩
    · unfold readLeda
      rw [e4]
      simp only [scanOne_line h1 hn', Option.bind_eq_bind, Option.bind_some, Option.getD_some]
      have hnew : newGraph (n : Int) = some { g := Graph.init n (6 * n) } := by
        unfold newGraph
        rw [if_neg (by omega)]
        simp
      rw [hnew]
      simp only [Graph.init]
      rw [hb]
      have hled : ledaRest (Graph.init n (6 * n)) b (lm ++ 10 :: (edges.flatMap (· ++ [10]) ++ rest)) = some (g', .ok) := by
        unfold ledaRest
        rw [fgets_whole (hl lm (by simp)), scanOne_line h3 hm]
        simp only [Option.bind_eq_bind, Option.bind_some, Int.toNat_natCast]
        exact b1
      simp only [Graph.init] at hled
      rw [hled]
      rfl
    · intro a b
      rw [b3]
      simp

end Verif.Text
