import Verif.IO.G6Read
import Verif.Props.Capacity

/-
Properties C34-C36, C38, C39, C59, C60: the graph6 format.
-/
namespace Verif.Props
open Verif Verif.Graph Verif.G6

/-! ### Writing -/

/-- C59 The writer's output is the header and the graph6 text of the graph, for every simple graph
of order 2 to 46341 (partial: see `C34_one_vertex_not_written` and `C35_overflow`). Edge directions play no role. -/
theorem C59_writer_conforms_partial {g : Graph} (hr : Reach g) (hs : IsSimple g) (h2 : 2 ≤ g.N) (hn : g.N ≤ 46341)
    {adj : Nat → Nat → Bool} (hd : Describes adj g) :
    writeG6 g = some (header ++ graph6 g.N adj, .ok) := by
  have he := encode_eq hr hs (by omega) hn hd
  have ho : orderBytes g.N = orderText g.N := by unfold orderBytes; rw [if_neg (by omega)]
  rw [ho] at he
  have htw : (orderText g.N ++ bitText (triangle g.N adj) ++ [0, 0, 0]).takeWhile (· ≠ 0) = graph6 g.N adj := by
    rw [List.takeWhile_append_of_pos]
    · simp [graph6]
    · intro c hc
      have : 63 ≤ c := by
        rcases List.mem_append.1 hc with h | h
        · exact (orderText_range c h).1
        · exact (bitText_range _ c h).1
      simp; omega
  have hw : writeGraph g = some (graph6 g.N adj, .ok) := by
    unfold writeGraph
    rw [if_neg (by omega), he]
    simp only [Option.bind_eq_bind, Option.bind_some, htw]
    rw [if_neg (by obtain ⟨c, s, h, -⟩ := orderText_cons g.N; simp [graph6, h])]
    rfl
  unfold writeG6
  rw [hw]; rfl

/-- Adjacency as a function. -/
noncomputable def adjOf (g : Graph) (i j : Nat) : Bool := by
  classical exact decide (Adjacent g (i + 1) (j + 1))

theorem adjOf_describes (g : Graph) : Describes (adjOf g) g := by
  intro i j _ _; unfold adjOf; simp

/-! ### Reading -/

/-- C60 The reader accepts every well-formed text, with or without header, with any line end, from
a string or a file, into a new graph or one of the same order, and the graph read is the one
described (partial: orders 2 to 46341). -/
theorem C60_reader_accepts_partial {n : Nat} (h2 : 2 ≤ n) (hn : n ≤ 46341) (adj : Nat → Nat → Bool) (file : Bool)
    {hdr tail t : List Int} (hh : hdr = [] ∨ hdr = chars header) (he : LineEnd tail t) {tgt : Target}
    (ht : TargetOk n tgt) :
    ∃ g', readG6 ⟨file, [], hdr ++ (chars (graph6 n adj) ++ tail)⟩ tgt = some (some g', .ok) ∧ Reach g' ∧
      IsGraph n adj g' ∧ g'.flags &&& 8 = 8 := by
  obtain ⟨g, hg, hr, hN, hM, hc, hf⟩ := prepare_ok (by omega) ht
  obtain ⟨m, hm⟩ : ∃ m, numCharsEnc n = some m := ⟨_, (numCharsEnc_eq hn).1⟩
  obtain ⟨past', hb⟩ := begin_eq hn hg file [] (chars (bitText (triangle n adj)) ++ tail) hdr hh hm
  rw [← List.append_assoc (chars (orderText n)), ← chars_append] at hb
  obtain ⟨it', h1, h2', h3, h4, h5⟩ := readGraph_ok (n := n) (it := openIter n m g ⟨file, past', chars (bitText (triangle n adj)) ++ tail⟩)
    ⟨rfl, rfl, hm, rfl, hr, hN, hc, rfl, fun _ => hM⟩ h2 hn adj he rfl
  refine ⟨it'.g, ?_, h5.reach, ⟨h5.order, h5.simple, h5.undir, h5.describes⟩, ?_⟩
  · unfold readG6
    rw [if_neg (by
      obtain ⟨c, s, hs, -⟩ := orderText_cons n
      simp [graph6, hs, chars])]
    have hb' : beginRead ⟨file, [], hdr ++ (chars (graph6 n adj) ++ tail)⟩ tgt = _ := hb
    rw [hb']
    simp only [Option.bind_eq_bind, Option.bind_some, h1]
    rfl
  · rw [h5.flags]; exact hf

theorem adjacent_symm {g : Graph} (hr : Reach g) {u v : Nat} (hu : IsVertex g u) (h : Adjacent g u v) :
    IsVertex g v ∧ Adjacent g v u := by
  obtain ⟨rot, hI⟩ := hr.inv
  obtain ⟨l, hl, hv⟩ := h
  rw [neighbors_eq hI (vSize_iff.1 hu).2] at hl
  cases hl
  obtain ⟨e, he, rfl⟩ := List.mem_map.1 hv
  have ht := hI.twins u e he
  have hv' := hI.links.vert _ _ ht
  refine ⟨vSize_iff.2 hv', _, neighbors_eq hI hv'.2, ?_⟩
  exact List.mem_map.2 ⟨_, ht, hI.owner u e he⟩

theorem isGraph_same {g g' : Graph} (hr : Reach g) (hs : IsSimple g) {adj : Nat → Nat → Bool} (hd : Describes adj g)
    (hr' : Reach g') (h' : IsGraph g.N adj g') : SameGraph g g' := by
  refine sameGraph_of hr hr' h'.order fun w hw => ?_
  have hw' : IsVertex g' w := by unfold IsVertex at *; rw [h'.order]; exact hw
  obtain ⟨l, hl, l1, l2, l3, l4⟩ := hs w hw
  obtain ⟨l', hl', l1', l2', l3', l4'⟩ := h'.simple w hw'
  refine ⟨l, l', hl, hl', (List.perm_ext_iff_of_nodup l1' l1).2 fun x => ?_⟩
  rw [h'.order] at l3' l4'
  have e1 : x ∈ l ↔ Adjacent g w x := by
    unfold Adjacent; rw [hl]; simp
  have e2 : x ∈ l' ↔ Adjacent g' w x := by
    unfold Adjacent; rw [hl']; simp
  by_cases hwN : g.N < w
  · rw [l4 hwN, l4' hwN]
  have hpos : ∀ {a}, x ∈ a → (a = l ∨ a = l') → 1 ≤ x ∧ x ≤ g.N ∧ x ≠ w := by
    intro a ha hc
    rcases hc with rfl | rfl
    · have := (adjacent_symm hr hw (e1.1 ha)).1
      exact ⟨this.1, l3 x ha, fun h => l2 (h ▸ ha)⟩
    · have := (adjacent_symm hr' hw' (e2.1 ha)).1
      exact ⟨this.1, l3' x ha, fun h => l2' (h ▸ ha)⟩
  by_cases hx : 1 ≤ x ∧ x ≤ g.N ∧ x ≠ w
  · have hw1 := hw.1
    have key : ∀ a b, 1 ≤ a → a < b → b ≤ g.N → (Adjacent g a b ↔ Adjacent g' a b) := by
      intro a b h1 h2 h3
      have q1 := hd (a - 1) (b - 1) (by omega) (by omega)
      have q2 := h'.edges (a - 1) (b - 1) (by omega) (by rw [h'.order]; omega)
      rw [show a - 1 + 1 = a by omega, show b - 1 + 1 = b by omega] at q1 q2
      exact q1.symm.trans q2
    rw [e1, e2]
    have sy : ∀ {G : Graph}, Reach G → G.N = g.N → (Adjacent G w x ↔ Adjacent G x w) := by
      intro G hG hN
      have hwG : IsVertex G w := by unfold IsVertex at *; rw [hN]; exact hw
      have hxG : IsVertex G x := by unfold IsVertex at *; rw [hN]; omega
      exact ⟨fun h => (adjacent_symm hG hwG h).2, fun h => (adjacent_symm hG hxG h).2⟩
    rcases Nat.lt_or_gt_of_ne hx.2.2 with h | h
    · rw [sy hr rfl, sy hr' h'.order]
      exact (key x w hx.1 h (by omega)).symm
    · exact (key w x hw1 h hx.2.1).symm
  · exact ⟨fun h => absurd (hpos h (Or.inr rfl)) hx, fun h => absurd (hpos h (Or.inl rfl)) hx⟩

/-- C34 Writing a simple graph in graph6 form and reading the text back gives the same graph,
whatever it is read from and into (partial: orders 2 to 46341; see `C34_one_vertex_not_written` and `C34_large_overflow` for
the others). -/
theorem C34_roundtrip_partial {g : Graph} (hr : Reach g) (hs : IsSimple g) (h2 : 2 ≤ g.N) (hn : g.N ≤ 46341) :
    ∃ text, writeG6 g = some (text, .ok) ∧ ∀ (file : Bool) (tgt : Target), TargetOk g.N tgt →
      ∃ g', readG6 ⟨file, [], chars text⟩ tgt = some (some g', .ok) ∧ SameGraph g g' ∧ Undirected g' := by
  refine ⟨_, C59_writer_conforms_partial hr hs h2 hn (adjOf_describes g), fun file tgt ht => ?_⟩
  obtain ⟨g', h1, h2', h3, -⟩ := C60_reader_accepts_partial h2 hn (adjOf g) file (Or.inr rfl) LineEnd.eof ht
  rw [List.append_nil, ← chars_append] at h1
  exact ⟨g', h1, isGraph_same hr hs (adjOf_describes g) h2' h3, h3.undirected⟩

/-- C34 is false of one vertex: the order byte stays 0 and the write fails. -/
theorem C34_one_vertex_not_written (c : Nat) :
    writeG6 (Graph.init 1 c) = some (header, .notok) := by
  have : encode (Graph.init 1 c) = some [0, 0, 0, 0] := by
    simp [encode, numCharsOrd, numCharsEnc, maxEdgeCount, putOrder, putEdges, nextInUse, inUse, Graph.init, add63]
  have hN : (Graph.init 1 c).N ≠ 0 := by simp [Graph.init]
  simp [writeG6, writeGraph, this, header, hN]

/-- C34 and C35 are false of large orders: the edge count overflows a 32-bit int for every order
above 46341, and writing has undefined behaviour. -/
theorem C35_overflow {n : Nat} (h : 46342 ≤ n) : numCharsEnc n = none := by
  have : 46342 * 46341 ≤ n * (n - 1) := Nat.mul_le_mul h (by omega)
  unfold numCharsEnc maxEdgeCount
  rw [if_neg (by omega)]; rfl

theorem C34_large_overflow {g : Graph} (h : 46342 ≤ g.N) : writeG6 g = none := by
  simp only [writeG6, writeGraph, encode, C35_overflow h]
  rw [if_neg (by omega)]; rfl

/-- C35 Up to order 46341 the number of characters is the number of bits over six rounded up, and
setting the bit of any pair of vertices stays inside the encoding part of the buffer (partial: the
orders 46342 to 100000 overflow). -/
theorem C35_sizes_partial {n : Nat} (hn : n ≤ 46341) :
    ∃ m, numCharsEnc n = some m ∧ m = (n * (n - 1) / 2 + 5) / 6 ∧
      ∀ u v, 1 ≤ u → u ≤ n → 1 ≤ v → v ≤ n → u ≠ v → ∀ buf : List Nat, buf.length = (numCharsOrd n).toNat + m →
        ∃ buf', G6.putEdge n (numCharsOrd n).toNat u v buf = some buf' ∧ buf'.length = buf.length ∧
          ∀ i, i < (numCharsOrd n).toNat → buf'[i]? = buf[i]? := by
  refine ⟨_, (numCharsEnc_eq hn).1, ?_, ?_⟩
  · rw [columnOffset_eq]; split <;> omega
  · intro u v hu1 hu2 hv1 hv2 hne buf hb
    have hrc := rowCol_lt (n := n) ⟨hu1, hu2⟩ ⟨hv1, hv2⟩ hne
    have hlt := cell_index_lt hrc.1 hrc.2
    have hbit : (columnOffset (rowCol u v).2 + (rowCol u v).1) / 6 <
        columnOffset n / 6 + if columnOffset n % 6 ≠ 0 then 1 else 0 := by
      split <;> omega
    unfold G6.putEdge poke
    simp only
    rw [if_pos (by omega), if_pos (by omega)]
    refine ⟨_, rfl, by simp, fun i hi => ?_⟩
    rw [List.getElem?_modify]
    have : ¬ (numCharsOrd n).toNat + (columnOffset (rowCol u v).2 + (rowCol u v).1) / 6 = i := by omega
    simp only [this, if_false, Option.map_eq_map, Option.map_id_fun', id]

/-! ### Malformed input -/

/-- C36 is false: whatever the text of a file or of a non-empty string, the read functions return
OK unless they have undefined behaviour, as the code of the failed read is overwritten. -/
theorem C36_always_ok {i : Inp} (hi : i.file = true ∨ i.rest ≠ []) {t : Target} {x : Option Graph} {r : Res}
    (h : readG6 i t = some (x, r)) : r = .ok := by
  unfold readG6 at h
  rw [if_neg (by rcases hi with h | h <;> simp [h])] at h
  cases hb : beginRead i t with
  | none => rw [hb] at h; simp at h
  | some o =>
    rw [hb] at h
    simp only [Option.bind_eq_bind, Option.bind_some] at h
    cases o with
    | none => simp at h; exact h.2.symm
    | some it =>
      simp only at h
      cases hg : readGraph it with
      | none => rw [hg] at h; simp at h
      | some p => rw [hg] at h; simp at h; exact h.2.symm

/-- "DQ" is a character short for order 5, and is read as OK with an edgeless graph. -/
theorem C36_short_text_accepted : ∃ g, readG6 ⟨false, [], [68, 81]⟩ (.fresh 0) = some (some g, .ok) ∧ g.M = 0 := by
  have h : ((readG6 ⟨false, [], [68, 81]⟩ (.fresh 0)).map fun p => (p.1.map (·.M), p.2)) = some (some 0, .ok) := by
    decide +kernel
  cases hr : readG6 ⟨false, [], [68, 81]⟩ (.fresh 0) with
  | none => rw [hr] at h; simp at h
  | some p =>
    rw [hr] at h
    obtain ⟨o, r⟩ := p
    cases o with
    | none => simp at h
    | some g => simp at h; exact ⟨g, by rw [h.2], h.1⟩

/-- A well-formed line of one vertex, "@" and a newline, reads outside a buffer. -/
theorem C36_one_vertex_line_undefined : readG6 ⟨false, [], [64, 10]⟩ (.fresh 0) = none := by decide +kernel

/-- A second line whose order is in the four-character form without being followed by a graph is
taken for a graph of seven vertices: "~??F?" after "F????". -/
theorem C36_second_line_accepted :
    ((beginRead ⟨false, [], [70, 63, 63, 63, 63, 10, 126, 63, 63, 70, 63]⟩ (.fresh 0)).bind fun o => o.bind fun it =>
      (readAll it 3).map fun p => (p.1.length, p.2)) = some (2, .ok) := by decide +kernel

/-- C36 With the iterator functions a successful read of the first line means that the line is the
graph6 text of some graph, and that graph has been read (partial: for the first line only, and for the
iterator functions only). -/
theorem C36_iterator_rejects_partial {n : Nat} {it it' : Iter} (hi : IterOk n it) (h2 : 2 ≤ n) (hn : n ≤ 46341)
    (h0 : it.numRead = 0) (hne : it.inp.rest ≠ []) (h : readGraph it = some (it', .ok)) :
    ∃ adj, cutLine (lineOf it.inp.file it.size it.inp.rest) = chars (bitText (triangle n adj)) ∧
      IsGraph n adj it'.g := by
  have hf : fgets it.size it.inp = (some (lineOf it.inp.file it.size it.inp.rest),
      ⟨it.inp.file, (lineOf it.inp.file it.size it.inp.rest).reverse ++ it.inp.past,
        it.inp.rest.drop (lineOf it.inp.file it.size it.inp.rest).length⟩) := by
    unfold fgets; rw [if_neg hne]
  unfold readGraph at h
  rw [if_neg (by simp [hi.active]), hf] at h
  generalize lineOf it.inp.file it.size it.inp.rest = s at h ⊢
  simp only at h
  generalize hi0 : ({ it with inp := ⟨it.inp.file, s.reverse ++ it.inp.past, it.inp.rest.drop s.length⟩ } : Iter) = it0 at h
  have hk : IterOk n it0 := by
    subst hi0; exact ⟨hi.order, hi.nOrd, hi.nEnc, hi.size, hi.reach, hi.gN, hi.cap, hi.active, hi.clean⟩
  have h00 : it0.numRead = 0 := by subst hi0; exact h0
  by_cases hfc : firstCharOk (s.getD 0 0) = true
  swap
  · unfold readLine at h; rw [if_pos (by rw [Bool.eq_false_iff.2 hfc]; rfl)] at h; simp at h
  by_cases hlen : (cutLine s).length ≠ it0.nEnc
  · unfold readLine at h
    simp only [h00, if_true] at h
    rw [if_neg (by rw [hfc]; simp), if_pos (by simpa using hlen)] at h; simp at h
  have hv : validate (cutLine s) 0 n it0.nEnc = some .ok := by
    unfold readLine at h
    simp only [h00, if_true] at h
    rw [if_neg (by rw [hfc]; simp), if_neg (by simpa using hlen)] at h
    simp only [decide_true, checkOrder', if_true, Option.bind_eq_bind, Option.bind_some, List.drop_zero, hk.order] at h
    rw [if_neg (by simp)] at h
    cases hv : validate (cutLine s) 0 n it0.nEnc with
    | none => rw [hv] at h; simp at h
    | some r =>
      rw [hv] at h
      simp only [Option.bind_some] at h
      cases r with
      | ok => rfl
      | notok => rw [if_pos (by simp)] at h; simp at h
      | nonembeddable => rw [if_pos (by simp)] at h; simp at h
  obtain ⟨x, hx, hs⟩ := (validate_iff hn hk.nEnc _ (by have := nEnc_pos h2 hn hk.nEnc; omega)).1 hv
  have hadj : triangle n (fun i j => bitSet x (columnOffset j + i)) = x := by
    apply List.ext_getElem?
    intro p
    unfold triangle
    rw [List.getElem?_map]
    by_cases hp : p < columnOffset n
    · have hc : p < (cells n).length := by rw [cells_length]; exact hp
      rw [List.getElem?_eq_getElem hc, Option.map_some]
      have := cell_index (i := ((cells n)[p]).1) (j := ((cells n)[p]).2) (p := p) (by rw [List.getElem?_eq_getElem hc])
      show some (bitSet x (columnOffset (cells n)[p].2 + (cells n)[p].1)) = x[p]?
      rw [← this]
      unfold bitSet
      rw [List.getD_eq_getElem?_getD, List.getElem?_eq_getElem (by omega)]; rfl
    · rw [List.getElem?_eq_none (by rw [cells_length]; omega), List.getElem?_eq_none (by omega)]; rfl
  refine ⟨fun i j => bitSet x (columnOffset j + i), by rw [hadj]; exact hs, ?_⟩
  obtain ⟨g, hg, hd⟩ := readLine_ok hk h2 hn (fun i j => bitSet x (columnOffset j + i)) hfc (by
    unfold lineFor; rw [if_pos h00, hadj]; exact hs)
  rw [hg] at h
  simp only [Option.some.injEq, Prod.mk.injEq, and_true] at h
  subst h
  exact ⟨hd.order, hd.simple, hd.undir, hd.describes⟩

/-! ### Several graphs -/

theorem readAll_next {n : Nat} (h2 : 2 ≤ n) (hn : n ≤ 46341) : ∀ {adjs : List (Nat → Nat → Bool)} {txt : List Int},
    Lines n adjs txt → ∀ {it : Iter}, IterOk n it → it.numRead ≠ 0 → it.inp.rest = txt →
      ∀ k, adjs.length < k → ∃ gs, readAll it k = some (gs, .ok) ∧ List.Forall₂ (fun adj g => IsGraph n adj g) adjs gs := by
  have key : ∀ (adj : Nat → Nat → Bool) (z t : List Int), LineEnd z t → ∀ {it : Iter}, IterOk n it → it.numRead ≠ 0 →
      it.inp.rest = (graph6 n adj).map Int.ofNat ++ z → ∃ it', readGraph it = some (it', .ok) ∧ IterOk n it' ∧
        it'.numRead ≠ 0 ∧ it'.inp.rest = t ∧ IsGraph n adj it'.g := by
    intro adj z t hz it hi h0 hr
    obtain ⟨it', h1, h2', h3, h4, h5⟩ := readGraph_ok hi h2 hn adj hz (by
      unfold lineFor; rw [if_neg h0]; exact hr)
    exact ⟨it', h1, h2', by omega, h4, h5.order, h5.simple, h5.undir, h5.describes⟩
  intro adjs txt hl
  induction hl with
  | last adj z hz =>
    intro it hi h0 hr k hk
    obtain ⟨it', h1, hi', h0', hr', hg⟩ := key adj z [] hz hi h0 hr
    obtain ⟨k, rfl⟩ : ∃ j, k = j + 2 := ⟨k - 2, by simp at hk; omega⟩
    refine ⟨[it'.g], ?_, .cons hg .nil⟩
    have hend : readGraph it' = some ({ it' with active := false }, .ok) := by
      unfold readGraph fgets
      rw [if_neg (by simp [hi'.active]), if_pos hr']
    simp [readAll, h1, hi'.active, hend]
  | more adj z t adjs hz _ ih =>
    intro it hi h0 hr k hk
    obtain ⟨it', h1, hi', h0', hr', hg⟩ := key adj z t hz hi h0 hr
    obtain ⟨k, rfl⟩ : ∃ j, k = j + 1 := ⟨k - 1, by simp at hk; omega⟩
    obtain ⟨gs, hgs, hall⟩ := ih hi' h0' hr' k (by simp at hk; omega)
    refine ⟨it'.g :: gs, ?_, .cons hg hall⟩
    simp [readAll, h1, hi'.active, hgs]

/-- C38 A file of graph6 lines of equal order is read back as the list of graphs it describes
(partial: the lines must be separated, which the write iterator does not do). -/
theorem C38_lines_partial {n : Nat} (h2 : 2 ≤ n) (hn : n ≤ 46341) {adjs : List (Nat → Nat → Bool)} {txt hdr : List Int}
    (hl : Lines n adjs txt) (hh : hdr = [] ∨ hdr = chars header) (file : Bool) {tgt : Target} (ht : TargetOk n tgt) :
    ∃ it, beginRead ⟨file, [], hdr ++ txt⟩ tgt = some (some it) ∧ ∀ k, adjs.length < k →
      ∃ gs, readAll it k = some (gs, .ok) ∧ List.Forall₂ (fun adj g => IsGraph n adj g) adjs gs := by
  obtain ⟨g, hg, hr, hN, hM, hc, hf⟩ := prepare_ok (by omega) ht
  obtain ⟨m, hm⟩ : ∃ m, numCharsEnc n = some m := ⟨_, (numCharsEnc_eq hn).1⟩
  have key : ∀ (adj : Nat → Nat → Bool) (z t : List Int), LineEnd z t →
      ∃ it, beginRead ⟨file, [], hdr ++ ((graph6 n adj).map Int.ofNat ++ z)⟩ tgt = some (some it) ∧
      ∃ it', readGraph it = some (it', .ok) ∧ IterOk n it' ∧
        it'.numRead ≠ 0 ∧ it'.inp.rest = t ∧ IsGraph n adj it'.g := by
    intro adj z t hz
    obtain ⟨past', hb⟩ := begin_eq hn hg file [] (chars (bitText (triangle n adj)) ++ z) hdr hh hm
    rw [← List.append_assoc (chars (orderText n)), ← chars_append] at hb
    refine ⟨_, hb, ?_⟩
    obtain ⟨it', h1, h2', h3, h4, h5⟩ := readGraph_ok (n := n) (it := openIter n m g ⟨file, past', chars (bitText (triangle n adj)) ++ z⟩)
      ⟨rfl, rfl, hm, rfl, hr, hN, hc, rfl, fun _ => hM⟩ h2 hn adj hz rfl
    exact ⟨it', h1, h2', by omega, h4, h5.order, h5.simple, h5.undir, h5.describes⟩
  cases hl with
  | last adj z hz =>
    obtain ⟨it, hb, it', h1, hi', h0', hr', hg⟩ := key adj z [] hz
    refine ⟨it, hb, fun k hk => ?_⟩
    obtain ⟨k, rfl⟩ : ∃ j, k = j + 2 := ⟨k - 2, by simp at hk; omega⟩
    refine ⟨[it'.g], ?_, .cons hg .nil⟩
    have hend : readGraph it' = some ({ it' with active := false }, .ok) := by
      unfold readGraph fgets
      rw [if_neg (by simp [hi'.active]), if_pos hr']
    simp [readAll, h1, hi'.active, hend]
  | more adj z t adjs hz hl =>
    obtain ⟨it, hb, it', h1, hi', h0', hr', hg⟩ := key adj z t hz
    refine ⟨it, hb, fun k hk => ?_⟩
    obtain ⟨k, rfl⟩ : ∃ j, k = j + 1 := ⟨k - 1, by simp at hk; omega⟩
    obtain ⟨gs, hgs, hall⟩ := readAll_next h2 hn hl hi' h0' hr' k (by simp at hk; omega)
    refine ⟨it'.g :: gs, ?_, .cons hg hall⟩
    simp [readAll, h1, hi'.active, hgs]

theorem writeGraph_eq {g : Graph} (hr : Reach g) (hs : IsSimple g) (h2 : 2 ≤ g.N) (hn : g.N ≤ 46341)
    {adj : Nat → Nat → Bool} (hd : Describes adj g) : writeGraph g = some (graph6 g.N adj, .ok) := by
  have h := C59_writer_conforms_partial hr hs h2 hn hd
  unfold writeG6 at h
  cases hw : writeGraph g with
  | none => rw [hw] at h; simp at h
  | some p =>
    obtain ⟨s, r⟩ := p
    rw [hw] at h
    simp only [Option.bind_eq_bind, Option.bind_some, Option.pure_def, Option.some.injEq, Prod.mk.injEq,
      List.append_cancel_left_eq] at h
    rw [h.1, h.2]

/-- C38 is false: of any two graphs written through one iterator not even the first is read back,
since nothing separates the two lines. -/
theorem C38_two_graphs_unreadable {g1 g2 : Graph} (hr1 : Reach g1) (hs1 : IsSimple g1) (hr2 : Reach g2)
    (hs2 : IsSimple g2) (h2 : 2 ≤ g1.N) (hn : g1.N ≤ 46341) (hN : g2.N = g1.N) :
    ∃ text, writeMany [g1, g2] = some (text, .ok) ∧ ∀ (file : Bool) (tgt : Target), TargetOk g1.N tgt →
      ∃ it, beginRead ⟨file, [], chars (header ++ text)⟩ tgt = some (some it) ∧
        ∃ it', readGraph it = some (it', .notok) := by
  have w1 := writeGraph_eq hr1 hs1 h2 hn (adjOf_describes g1)
  have w2 := writeGraph_eq hr2 hs2 (by omega) (by omega) (adjOf_describes g2)
  rw [hN] at w2
  refine ⟨graph6 g1.N (adjOf g1) ++ graph6 g1.N (adjOf g2), ?_, fun file tgt ht => ?_⟩
  · simp [writeMany, w1, w2]
  obtain ⟨g, hg, hr, hN, hM, hc, hf⟩ := prepare_ok (by omega) ht
  generalize g1.N = n at *
  obtain ⟨m, hm⟩ : ∃ m, numCharsEnc n = some m := ⟨_, (numCharsEnc_eq hn).1⟩
  obtain ⟨past', hb⟩ := begin_eq hn hg file []
    (chars (bitText (triangle n (adjOf g1))) ++ chars (graph6 n (adjOf g2))) (chars header) (Or.inr rfl) hm
  rw [← List.append_assoc (chars (orderText n)), ← chars_append, ← chars_append, ← chars_append] at hb
  refine ⟨_, hb, ?_⟩
  have hl1 : (bitText (triangle n (adjOf g1))).length = m := bitText_length hn hm (triangle_length n _)
  have hl2 : (bitText (triangle n (adjOf g2))).length = m := bitText_length hn hm (triangle_length n _)
  have hpos := nEnc_pos h2 hn hm
  have hol := orderText_length (n := n) (by omega) (by omega)
  have hop : 1 ≤ (numCharsOrd n).toNat := by
    rw [← hol]; obtain ⟨c, s, hs, -⟩ := orderText_cons n; simp [hs]
  generalize hR : chars (bitText (triangle n (adjOf g1))) ++ chars (graph6 n (adjOf g2)) = R
  have hRl : R.length = (numCharsOrd n).toNat + 2 * m := by
    rw [← hR, List.length_append, chars_length, chars_length, graph6, List.length_append, hl1, hl2, hol]; omega
  have hRp : Printable R := by
    intro c hc
    rw [← hR] at hc
    rcases List.mem_append.1 hc with h | h
    · exact printable_bitText _ c h
    · exact printable_graph6 _ _ c h
  have hT : Printable (R.take ((numCharsOrd n).toNat + m + 2)) := fun c hc => hRp c (List.mem_of_mem_take hc)
  have hline : lineOf file ((numCharsOrd n).toNat + m + 3) R = R.take ((numCharsOrd n).toNat + m + 2) := by
    unfold lineOf
    have n10 : (10 : Int) ∉ R.take ((numCharsOrd n).toNat + m + 2) := fun h => by have := hT _ h; omega
    have n13 : (13 : Int) ∉ R.take ((numCharsOrd n).toNat + m + 2) := fun h => by have := hT _ h; omega
    simp only [show (numCharsOrd n).toNat + m + 3 - 1 = (numCharsOrd n).toNat + m + 2 by omega,
      cutAfter_none n10, cutAfter_none n13, ite_self]
  have hRne : R ≠ [] := List.ne_nil_of_length_pos (by omega)
  have hcl : cutLine (R.take ((numCharsOrd n).toNat + m + 2)) = R.take ((numCharsOrd n).toNat + m + 2) := by
    have := cutLine_eq (z := []) hT (Or.inl rfl)
    rwa [List.append_nil] at this
  have hfc : firstCharOk ((R.take ((numCharsOrd n).toNat + m + 2)).getD 0 0) = true := by
    have := firstChar_eq (z := []) hT (List.ne_nil_of_length_pos (by rw [List.length_take]; omega))
    rwa [List.append_nil] at this
  unfold readGraph fgets openIter
  simp only [if_neg hRne, hline]
  rw [if_neg (by simp)]
  unfold readLine
  simp only
  rw [hfc, hcl, if_neg (by simp), if_pos (by simp; omega)]
  exact ⟨_, rfl⟩

/-- C39 is false of graph6: there is a graph with a directed edge that is written without an error.
(`C59_writer_conforms_partial` shows that this is so for every directed simple graph.) -/
theorem C39_directed_graph6_written : ∃ g : Graph, Reach g ∧ ¬ Undirected g ∧
    ∃ s, writeG6 g = some (s, .ok) := by
  refine ⟨((exec (Graph.init 3 18) [.add 1 0 2 0, .direct 2 32]).map Prod.fst).getD (Graph.init 0 0),
    runOk (by decide) rfl (by decide +kernel), fun h => ?_, header ++ [66, 95], by decide +kernel⟩
  have := h 2 (⟨2, by unfold ArcAt; decide +kernel⟩)
  revert this
  decide +kernel

/-! ### Examples -/

/-- Decision procedure for `IsSimple`. -/
def isSimpleB (g : Graph) : Bool :=
  (List.range (2 * g.N)).all fun i =>
    match neighbors g (i + 1) with
    | none => false
    | some l => decide l.Nodup && !l.contains (i + 1) && l.all (· ≤ g.N) && (decide (i + 1 ≤ g.N) || l.isEmpty)

theorem isSimpleB_sound {g : Graph} (h : isSimpleB g = true) : IsSimple g := by
  intro w hw
  unfold IsVertex at hw
  have := List.all_eq_true.1 h (w - 1) (List.mem_range.2 (by omega))
  rw [show w - 1 + 1 = w by omega] at this
  cases hn : neighbors g w with
  | none => rw [hn] at this; simp at this
  | some l =>
    rw [hn] at this
    simp only [Bool.and_eq_true, decide_eq_true_eq, Bool.not_eq_true', List.contains_eq_mem, decide_eq_false_iff_not,
      List.all_eq_true, Bool.or_eq_true, List.isEmpty_iff] at this
    exact ⟨l, rfl, this.1.1.1, this.1.1.2, this.1.2, fun hlt => by rcases this.2 with h | h; omega; exact h⟩

/-- The path 1-2-3-4 meets the hypotheses of the writer and round-trip theorems. -/
example : Reach fullSix ∧ IsSimple fullSix ∧ 2 ≤ fullSix.N ∧ fullSix.N ≤ 46341 ∧
    writeG6 fullSix = some (header ++ [67, 104], .ok) ∧ TargetOk 4 (.fresh 0) ∧ TargetOk 4 (.ready fullSix) := by
  refine ⟨fullSix_reach, isSimpleB_sound (by decide +kernel), by decide +kernel, by decide +kernel, by decide +kernel,
    Or.inl rfl, fullSix_reach, by decide +kernel, by decide +kernel⟩

/-- Reading "C h" back. -/
example : ((readG6 ⟨true, [], [67, 104, 13, 10]⟩ (.ready fullSix)).map fun p => (p.1.map fun g =>
    [1, 2, 3, 4].map (neighbors g), p.2)) =
    some (some [some [2], some [3, 1], some [4, 2], some [3]], .ok) := by decide +kernel

/-- "DQd" has a padding bit that is not zero: the iterator opens and the read is refused. -/
example : ∃ it, beginRead ⟨false, [], [68, 81, 100]⟩ (.fresh 0) = some (some it) ∧ it.numRead = 0 ∧
    it.inp.rest ≠ [] ∧ (readGraph it).map (·.2) = some .notok := by
  have h : ((beginRead ⟨false, [], [68, 81, 100]⟩ (.fresh 0)).map fun o => o.map fun it =>
      (it.numRead, it.inp.rest, (readGraph it).map (·.2))) = some (some (0, [81, 100], some .notok)) := by decide +kernel
  cases hb : beginRead ⟨false, [], [68, 81, 100]⟩ (.fresh 0) with
  | none => rw [hb] at h; simp at h
  | some o =>
    cases o with
    | none => rw [hb] at h; simp at h
    | some it =>
      rw [hb] at h; simp at h
      refine ⟨it, rfl, h.1, by rw [h.2.1]; simp, by simpa using h.2.2⟩

/-- Two lines, the first ended by carriage return and newline. -/
example : Lines 2 [fun _ _ => true, fun _ _ => false] [65, 95, 13, 10, 65, 63, 10] :=
  .more (fun _ _ => true) [13, 10, 65, 63, 10] [65, 63, 10] _ (.crlf _) (.last (fun _ _ => false) [10] (.lf _))

end Verif.Props
