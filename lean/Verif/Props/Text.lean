import Verif.IO.RoundTrip
import Verif.IO.MatrixText
import Verif.Props.G6

/-
The text formats: properties C37 and C39 to C43.
-/
namespace Verif.Props
open Verif Verif.Graph Verif.Text Verif.SB

/-! ### Adjacency lists -/

theorem firstLine_adj (r : List Nat) : ∃ x, firstLine (78 :: 61 :: r) = some (78 :: 61 :: x) := by
  unfold firstLine
  rw [if_neg (by simp)]
  simp only [List.take_succ_cons, List.takeWhile_cons]
  simp

theorem detect_adj (x : List Nat) : detect (78 :: 61 :: x) = .adjList := by
  simp [detect, ledaMark]

theorem adjText_cons (out : Nat → List Nat) (z : Bool) (N : Nat) : ∃ r, adjText out z N = 78 :: 61 :: r := by
  unfold adjText; exact ⟨_, rfl⟩

/-- Both ways of reading the text of a writer. -/
theorem read_both {g : Graph} (h1 : 1 ≤ g.N) (hN : g.N < 2147483648) (hl : Lists g) {fuel : Nat} (hf : g.N ≤ fuel)
    {P : Graph → Prop} (hP : ∀ s rot, Bet (outOf g) s rot (g.N + 1) → s.g.N = g.N → zeroBased s.g = zeroBased g → P s.g) :
    (∃ g', gpRead fuel (adjText (outOf g) (zeroBased g) g.N) = some (some g', .ok) ∧ P g') ∧
    (∃ g', gpReadString fuel (adjText (outOf g) (zeroBased g) g.N) = some (some g', .ok) ∧ P g') := by
  obtain ⟨r, hr⟩ := adjText_cons (outOf g) (zeroBased g) g.N
  obtain ⟨x, hx⟩ := firstLine_adj r
  constructor
  · obtain ⟨t', s', rot', hread, hb, -, hN', hfl⟩ := readAdjList_spec file_faithful h1 hl.proper hN hf (t := adjText (outOf g) (zeroBased g) g.N) (z := zeroBased g) rfl
    refine ⟨s'.g, ?_, hP _ _ hb hN' (zeroBased_of hfl)⟩
    unfold gpRead
    rw [hread, hr, hx]
    simp only [Option.bind_eq_bind, Option.bind_some, detect_adj, Option.map_some]
    rfl
  · obtain ⟨t', s', rot', hread, hb, hrep, hN', hfl⟩ := readAdjList_spec string_faithful h1 hl.proper hN hf (z := zeroBased g) (strBuf_ahead (adjText_noNul _ _ _))
    refine ⟨s'.g, ?_, hP _ _ hb hN' (zeroBased_of hfl)⟩
    unfold gpReadString
    rw [hread]
    have hd : detect (adjText (outOf g) (zeroBased g) g.N) = .adjList := by rw [hr]; exact detect_adj r
    rw [hd]
    have he := hrep.read
    simp [extraData, he]

/-- C41 A graph with any mixture of directed and undirected edges, at most one for two vertices, written as an adjacency list
and read back from a file or from a string: the same arcs with the same directions, those that can be left by in the same
order, and the same numbering base. -/
theorem adjlist_mixed {g : Graph} (h1 : 1 ≤ g.N) (hN : g.N < 2147483648) (hs : SimpleLists g) (hm : Mixed g) :
    ∃ text, writeAdjList g = some text ∧ ∀ fuel, g.N ≤ fuel →
      (∃ g', gpRead fuel text = some (some g', .ok) ∧ SameEntries g g' ∧ SameOutOrder g g' ∧ zeroBased g' = zeroBased g) ∧
      (∃ g', gpReadString fuel text = some (some g', .ok) ∧ SameEntries g g' ∧ SameOutOrder g g' ∧
        zeroBased g' = zeroBased g) := by
  have hl := SimpleLists.lists hs
  have hma := mixedArcs hl hm
  refine ⟨_, writeAdjList_eq hl, fun fuel hf => read_both h1 hN hl hf fun s rot hb hN' hz => ⟨⟨hN', ?_⟩, ?_, hz⟩⟩
  · intro w w1 w2
    obtain ⟨l, l', a, b, c, -⟩ := read_back hl hma hb hN' w1 w2
    exact ⟨l, l', a, b, c⟩
  · intro w w1 w2
    obtain ⟨l, l', a, b, -, c⟩ := read_back hl hma hb hN' w1 w2
    exact ⟨l, l', a, b, c⟩

theorem noDirections_flags {g : Graph} (hl : Lists g) (h : NoDirections g) {w : Nat} (w1 : 1 ≤ w) (w2 : w ≤ g.N) {e : Nat}
    (he : e ∈ rotOf g w) : (g.E e).flags &&& 96 = 0 := by
  obtain ⟨l, hl', h0⟩ := h w w1 w2
  rw [hl.entries w1 w2] at hl'
  cases hl'
  exact h0 _ (List.mem_map.2 ⟨e, he, rfl⟩)

theorem noDirections_mixed {g : Graph} (hl : Lists g) (h : NoDirections g) : MixedArcs g := by
  constructor
  intro w w1 w2 e he
  have hr := hl.range w w1 w2 e he
  have ht := hl.twins w w1 w2 e he
  exact .inl ⟨noDirections_flags hl h w1 w2 he, noDirections_flags hl h hr.1 hr.2.1 ht.1⟩

theorem fst_entries {g : Graph} {w : Nat} {l} (hl : Lists g) (w1 : 1 ≤ w) (w2 : w ≤ g.N) (h : entries g w = some l) :
    neighbors g w = some (l.map Prod.fst) := by
  rw [hl.entries w1 w2] at h
  cases h
  rw [hl.neighbors w1 w2, List.map_map]
  rfl

theorem read_undirected {g : Graph} (hl : Lists g) (hd : NoDirections g) {s : PGraph} {rot : Nat → List Nat}
    (hb : Bet (outOf g) s rot (g.N + 1)) (hN' : s.g.N = g.N) {w : Nat} (w1 : 1 ≤ w) (w2 : w ≤ g.N) :
    neighbors s.g w = neighbors g w ∧ entries s.g w = entries g w := by
  obtain ⟨l, l', a, b, c, d⟩ := read_back hl (noDirections_mixed hl hd) hb hN' w1 w2
  obtain ⟨l0, hl0, h0⟩ := hd w w1 w2
  rw [a] at hl0; cases hl0
  have e1 : l.filter (fun x => x.2 ≠ 32) = l := List.filter_eq_self.2 fun x hx => by rw [h0 x hx]; rfl
  have e2 : l'.filter (fun x => x.2 ≠ 32) = l' := List.filter_eq_self.2 fun x hx => by rw [h0 x (c.subset hx)]; rfl
  rw [e1, e2] at d
  subst d
  exact ⟨by rw [fst_entries hl w1 w2 a, fst_entries (bet_lists hb).2 w1 (by omega) b], by rw [a, b]⟩

/-- C40 A simple undirected graph written as an adjacency list and read back from a file or from a string: the neighbours of
every vertex in the same rotation order, no directions, and the same numbering base. -/
theorem adjlist_rotation {g : Graph} (h1 : 1 ≤ g.N) (hN : g.N < 2147483648) (hs : SimpleLists g) (hd : NoDirections g) :
    ∃ text, writeAdjList g = some text ∧ ∀ fuel, g.N ≤ fuel →
      (∃ g', gpRead fuel text = some (some g', .ok) ∧ g'.N = g.N ∧
        (∀ w, 1 ≤ w → w ≤ g.N → neighbors g' w = neighbors g w) ∧ NoDirections g' ∧ zeroBased g' = zeroBased g) ∧
      (∃ g', gpReadString fuel text = some (some g', .ok) ∧ g'.N = g.N ∧
        (∀ w, 1 ≤ w → w ≤ g.N → neighbors g' w = neighbors g w) ∧ NoDirections g' ∧ zeroBased g' = zeroBased g) := by
  have hl := SimpleLists.lists hs
  refine ⟨_, writeAdjList_eq hl, fun fuel hf => read_both h1 hN hl hf fun s rot hb hN' hz => ⟨hN', ?_, ?_, hz⟩⟩
  · exact fun w w1 w2 => (read_undirected hl hd hb hN' w1 w2).1
  · intro w w1 w2
    rw [hN'] at w2
    rw [(read_undirected hl hd hb hN' w1 w2).2]
    exact hd w w1 w2

/-- Graphs made with the library. -/
theorem noDirections_of {g : Graph} (hr : Reach g) (hs : IsSimple g) (hu : Undirected g) : NoDirections g := by
  have hl := SimpleLists.lists (simpleLists_of hr hs)
  obtain ⟨rot, hI⟩ := hr.inv
  intro w w1 w2
  refine ⟨_, hl.entries w1 w2, ?_⟩
  intro x hx
  obtain ⟨e, he, rfl⟩ := List.mem_map.1 hx
  have hw : w < g.vSize := by unfold vSize; omega
  have he' : e ∈ rot w := by
    unfold rotOf at he
    rw [walk_eq hI.links hw] at he
    exact he
  have := hu e ((live_iff hI).2 ⟨w, he'⟩)
  rw [getDirection_eq (hI.links.arc w e he').2] at this
  exact Option.some.inj this

/-- What is read from the text of a simple undirected graph. -/
theorem read_library {g : Graph} (hr : Reach g) (hs : IsSimple g) (hu : Undirected g) {s : PGraph} {rot : Nat → List Nat}
    (hb : Bet (outOf g) s rot (g.N + 1)) (hN' : s.g.N = g.N) :
    s.g.M = g.M ∧ (∀ w, IsVertex g w → neighbors s.g w = neighbors g w) ∧ Undirected s.g := by
  have hl := SimpleLists.lists (simpleLists_of hr hs)
  have hd := noDirections_of hr hs hu
  obtain ⟨rot0, hI⟩ := hr.inv
  have hI' := hb.saved.inv
  have hnb : ∀ w, IsVertex g w → neighbors s.g w = neighbors g w := by
    intro w hw
    have hwv := vSize_iff.1 hw
    by_cases w2 : w ≤ g.N
    · exact (read_undirected hl hd hb hN' hw.1 w2).1
    · obtain ⟨l, hl1, -, -, -, hem⟩ := hs w hw
      rw [hl1, hem (by omega), neighbors_eq hI' (by unfold vSize at *; omega)]
      have : rot w = [] := by
        by_contra hc
        obtain ⟨e, he⟩ := List.exists_mem_of_ne_nil _ hc
        have := (hb.saved.small w e (.inl he)).2
        omega
      rw [this]; rfl
  refine ⟨edges_eq hI hI' hN' ?_, hnb, ?_⟩
  · intro w hw
    by_cases w0 : w = 0
    · subst w0
      have z0 : rot 0 = [] := by
        by_contra hc
        obtain ⟨e, he⟩ := List.exists_mem_of_ne_nil _ hc
        exact absurd (hI'.links.vert 0 e he).1 (by omega)
      have z0' : rot0 0 = [] := by
        by_contra hc
        obtain ⟨e, he⟩ := List.exists_mem_of_ne_nil _ hc
        exact absurd (hI.links.vert 0 e he).1 (by omega)
      rw [z0, z0']
    · have := hnb w (vSize_iff.2 ⟨by omega, hw⟩)
      rw [neighbors_eq hI hw, neighbors_eq hI' (by unfold vSize at *; omega)] at this
      simpa using congrArg List.length (Option.some.inj this)
  · intro e he
    obtain ⟨w, hw⟩ := (live_iff hI').1 he
    have hsm := hb.saved.small w e (.inl hw)
    have hlt := (hI'.links.arc w e hw).2
    have hE := (read_undirected hl hd hb hN' hsm.1 (by omega)).2
    obtain ⟨l, hl1, h0⟩ := hd w hsm.1 (by omega)
    rw [hl1, (bet_lists hb).2.entries hsm.1 (by omega), (bet_lists hb).1 w hsm.1 (by omega)] at hE
    rw [getDirection_eq hlt]
    exact congrArg some (h0 ((s.g.E e).nbr, (s.g.E e).flags &&& 96) (by
      rw [← Option.some.inj hE]; exact List.mem_map.2 ⟨e, hw, rfl⟩))

/-- C40 for every simple undirected graph made with the library: all vertices, virtual ones included, have the same neighbours in
the same rotation order, and there are as many edges as before. -/
theorem adjlist_library {g : Graph} (h1 : 1 ≤ g.N) (hN : g.N < 2147483648) (hr : Reach g) (hs : IsSimple g) (hu : Undirected g) :
    ∃ text, writeAdjList g = some text ∧ ∀ fuel, g.N ≤ fuel →
      (∃ g', gpRead fuel text = some (some g', .ok) ∧ g'.N = g.N ∧ g'.M = g.M ∧
        (∀ w, IsVertex g w → neighbors g' w = neighbors g w) ∧ Undirected g' ∧ zeroBased g' = zeroBased g) ∧
      (∃ g', gpReadString fuel text = some (some g', .ok) ∧ g'.N = g.N ∧ g'.M = g.M ∧
        (∀ w, IsVertex g w → neighbors g' w = neighbors g w) ∧ Undirected g' ∧ zeroBased g' = zeroBased g) := by
  have hl := SimpleLists.lists (simpleLists_of hr hs)
  refine ⟨_, writeAdjList_eq hl, fun fuel hf => read_both h1 hN hl hf fun s rot hb hN' hz => ?_⟩
  obtain ⟨a, b, c⟩ := read_library hr hs hu hb hN'
  exact ⟨hN', a, b, c, hz⟩

/-- A decision procedure for `Mixed`. -/
def mixedB (g : Graph) : Bool :=
  (List.range g.N).all fun i => ((g.walk false (i + 1)).getD []).all fun e =>
    (g.getDirection e == some 0 && g.getDirection (twin e) == some 0) ||
    (g.getDirection e == some 32 && g.getDirection (twin e) == some 64) ||
    (g.getDirection e == some 64 && g.getDirection (twin e) == some 32)

theorem mixedB_sound {g : Graph} (h : mixedB g = true) : Mixed g := by
  intro w w1 w2 L hL e he
  have := List.all_eq_true.1 h (w - 1) (List.mem_range.2 (by omega))
  rw [show w - 1 + 1 = w by omega, hL] at this
  have := List.all_eq_true.1 this e he
  simpa [or_assoc] using this

/-- The path 1-2-3-4 meets the hypotheses; its text in the default numbering. -/
example : Reach fullSix ∧ IsSimple fullSix ∧ Undirected fullSix ∧ SimpleLists fullSix ∧ NoDirections fullSix ∧
    writeAdjList fullSix = some ("N=4\n1: 2 0\n2: 1 3 0\n3: 2 4 0\n4: 3 0\n".toList.map Char.toNat) := by
  have hs : IsSimple fullSix := isSimpleB_sound (by decide +kernel)
  have hu : Undirected fullSix := by
    obtain ⟨rot, hI⟩ := fullSix_reach.inv
    have hlt : ∀ e, e < 8 → fullSix.getDirection e = some 0 := by decide +kernel
    have hsz : fullSix.eSize = 8 := by decide +kernel
    intro e he
    obtain ⟨w, hw⟩ := (live_iff hI).1 he
    exact hlt e (by have := (hI.links.arc w e hw).2; omega)
  exact ⟨fullSix_reach, hs, hu, simpleLists_of fullSix_reach hs, noDirections_of fullSix_reach hs hu, by decide +kernel⟩

/-- Four vertices, zero-based, with the directed edges 1 → 2 and 3 → 1 and the undirected edges 2-3 and 3-4. -/
def mixedFour' : Graph :=
  ((exec (Graph.init 4 24) [.add 1 0 2 0, .add 2 0 3 0, .add 1 0 3 0, .add 3 1 4 0, .direct 3 64, .direct 7 32]).map
    Prod.fst).getD (Graph.init 0 0)
def mixedFour : Graph := { mixedFour' with flags := 8 }

theorem mixedFour_reach : Reach mixedFour := .flag 8 (runOk (by decide) rfl (by decide +kernel) : Reach mixedFour')

example : SimpleLists mixedFour ∧ Mixed mixedFour ∧
    writeAdjList mixedFour = some ("N=4\n0: 1 -1\n1: 2 -1\n2: 3 1 0 -1\n3: 2 -1\n".toList.map Char.toNat) :=
  ⟨simpleLists_of mixedFour_reach (isSimpleB_sound (by decide +kernel)), mixedB_sound (by decide +kernel), by decide +kernel⟩

/-! ### Adjacency matrices -/

theorem detect_digit {c : Nat} {x : List Nat} (h : isDigit c = true) : detect (c :: x) = .adjMatrix := by
  have h' := isDigit_iff.1 h
  have h1 : ¬ ledaMark <+: c :: x := fun hc => by
    obtain ⟨r, hr⟩ := hc
    simp only [ledaMark, List.cons_append, List.cons.injEq] at hr; omega
  have h2 : ¬ [78, 61] <+: c :: x := fun hc => by
    obtain ⟨r, hr⟩ := hc
    simp only [List.cons_append, List.cons.injEq] at hr; omega
  unfold detect
  rw [if_neg h1, if_neg h2, if_pos (by simpa using h)]

theorem firstLine_digit {c : Nat} (h : isDigit c = true) (r : List Nat) : ∃ x, firstLine (c :: r) = some (c :: x) := by
  have h' := isDigit_iff.1 h
  unfold firstLine
  rw [if_neg (by simp)]
  simp only [List.take_succ_cons, List.takeWhile_cons]
  have h1 : c ≠ 10 := by omega
  have h2 : c ≠ 0 := by omega
  simp [h1, h2]

theorem dec_cons (n : Nat) : ∃ c l, dec n = c :: l ∧ isDigit c = true := by
  obtain ⟨c, l, hc⟩ := List.exists_cons_of_ne_nil (dec_ne n)
  exact ⟨c, l, hc, dec_digit (n := n) (by rw [hc]; simp)⟩

theorem decInt_nat (n : Nat) : decInt (n : Int) = dec n := by
  unfold decInt; rw [if_neg (by omega)]; rfl

/-- The neighbours as a relation, for graphs made with the library. -/
theorem describes_rot {g : Graph} (hl : Lists g) :
    Describes (fun i j => decide (j + 1 ∈ (rotOf g (i + 1)).map fun e => (g.E e).nbr)) g := by
  intro i j hij hj
  unfold Adjacent
  rw [hl.neighbors (by omega) (by omega)]
  simp

/-- C42, the part for files: a simple undirected graph written as an adjacency matrix and read back from a file is the same graph.
Missing: strings, for which the property is false. -/
theorem adjmatrix_file_partial {g : Graph} (h1 : 1 ≤ g.N) (hN : g.N < 2147483648) (hr : Reach g) (hs : IsSimple g)
    (hu : Undirected g) :
    ∃ text, writeAdjMatrix g = some (text, .ok) ∧ ∀ fuel,
      ∃ g', gpRead fuel text = some (some g', .ok) ∧ SameGraph g g' ∧ Undirected g' := by
  have hl := SimpleLists.lists (simpleLists_of hr hs)
  have hd := noDirections_of hr hs hu
  refine ⟨_, writeAdjMatrix_eq hl fun w w1 w2 e he => by rw [noDirections_flags hl hd w1 w2 he]; decide, fun fuel => ?_⟩
  obtain ⟨nb, hnb⟩ : ∃ nb : Nat → List Nat, nb = fun w => (rotOf g w).map fun e => (g.E e).nbr := ⟨_, rfl⟩
  rw [← hnb]
  obtain ⟨t1, ho, ht1⟩ := file_faithful.number _ [] (g.N : Int) ([10] ++ rowsText nb g.N g.N 1) (by simp) (by omega) rfl rfl
  rw [decInt_nat, List.nil_append, ← List.append_assoc] at ho
  obtain ⟨t', hF, -⟩ := file_feed (rowsFrom (fun a b => decide (b ∈ nb a)) g.N g.N 1) t1 [] (by
    rw [ht1, filter_dropWhile_space, List.filter_append, rowsText_filter nb g.N g.N 1 (by omega)]
    simp [isSpace])
  obtain ⟨s, L, hread, hB, hL⟩ := readAdjMatrix_spec _ h1 ho hF
  refine ⟨s.g, ?_, isGraph_same hr hs ?_ hB.reach (hB.isGraph hL), hB.undir⟩
  · obtain ⟨c, l, hc, hdg⟩ := dec_cons g.N
    rw [hc] at hread ⊢
    obtain ⟨x, hx⟩ := firstLine_digit hdg (l ++ [10] ++ rowsText nb g.N g.N 1)
    simp only [List.cons_append] at hread ⊢
    unfold gpRead
    rw [hread, hx]
    simp only [Option.bind_eq_bind, Option.bind_some, detect_digit hdg, Option.map_some]
    rfl
  · rw [hnb]; exact describes_rot hl

/-- Three vertices, edges 1-2 and 1-3. -/
def starThree : Graph := ((exec (Graph.init 3 18) [.add 1 0 2 0, .add 1 0 3 0]).map Prod.fst).getD (Graph.init 0 0)
theorem starThree_reach : Reach starThree := runOk (by decide) rfl (by decide +kernel)
theorem starThree_simple : IsSimple starThree := isSimpleB_sound (by decide +kernel)

/-- A decision procedure for `Undirected`, for graphs made with the library. -/
theorem undirected_of {g : Graph} (hr : Reach g) (h : ∀ e, e < g.eSize → g.getDirection e = some 0) : Undirected g := by
  obtain ⟨rot, hI⟩ := hr.inv
  intro e he
  obtain ⟨w, hw⟩ := (live_iff hI).1 he
  exact h e (hI.links.arc w e hw).2

theorem starThree_undirected : Undirected starThree := undirected_of starThree_reach (by decide +kernel)

theorem matrix_fuel {s : List Nat} (h : detect s = .adjMatrix) (fuel : Nat) : gpReadString fuel s = gpReadString 0 s := by
  unfold gpReadString
  rw [h]

/-- C42 is false of strings: the text written for three vertices with the edges 1-2 and 1-3 is read as the graph with the
edge 1-2 alone. -/
theorem adjmatrix_string_false : ∃ g : Graph, Reach g ∧ IsSimple g ∧ Undirected g ∧
    ∃ text, writeAdjMatrix g = some (text, .ok) ∧ ∀ fuel, (gpReadString fuel text).map (fun p => (p.1.map (·.M), p.2)) = some (some 1, .ok) ∧
      g.M = 2 :=
  ⟨starThree, starThree_reach, starThree_simple, starThree_undirected, "3\n 11\n  0\n   \n".toList.map Char.toNat, by decide +kernel, fun _ =>
    ⟨by rw [matrix_fuel (by decide +kernel)]; decide +kernel, by decide +kernel⟩⟩

theorem spaced_noNul {s : List Nat} {bs : List Bool} (h : Spaced s bs) : 0 ∉ s := by
  induction h with
  | nil p hp => intro hc; exact absurd (hp 0 hc) (by decide)
  | @cons p r b bs hp hr _ ih =>
    intro hc
    rcases List.mem_append.1 hc with hc | hc
    · exact absurd (hp 0 hc) (by decide)
    · rcases List.mem_cons.1 hc with hc | hc
      · exact (bit_cases b).2.2.2 hc.symm
      · exact ih hc

/-- Strings whose flags are separated by white space are read right: the graph is the one of the flags. -/
theorem adjmatrix_spaced_string {n : Nat} (h1 : 1 ≤ n) (hn : n < 2147483648) (nb : Nat → Nat → Bool) {s : List Nat}
    (hs : Spaced s (rowsFrom nb n n 1)) (fuel : Nat) :
    ∃ g, gpReadString fuel (dec n ++ 10 :: s) = some (some g, .ok) ∧ IsGraph n (fun i j => nb (i + 1) (j + 1)) g := by
  have hnn : 0 ∉ dec n ++ 10 :: s := by
    intro hc
    rcases List.mem_append.1 hc with hc | hc
    · have := isDigit_iff.1 (dec_digit hc); omega
    · rcases List.mem_cons.1 hc with hc | hc
      · omega
      · exact spaced_noNul hs hc
  obtain ⟨t1, ho, ht1⟩ := string_faithful.number (strBuf (dec n ++ 10 :: s)) [] (n : Int) (10 :: s) (by simp) (by omega) rfl (by
    rw [decInt_nat]; exact strBuf_ahead hnn)
  have hs' : Spaced ((10 :: s).dropWhile isSpace) (rowsFrom nb n n 1) := by
    rw [List.dropWhile_cons_of_pos (by rfl)]
    generalize rowsFrom nb n n 1 = bs at hs
    cases hs with
    | nil p hp => exact .nil _ fun c hc => hp c ((List.dropWhile_sublist _).subset hc)
    | @cons p r b bs hp hr hs =>
      rw [dropWhile_spaces hp, List.dropWhile_cons_of_neg (by simp [(bit_cases b).1])]
      exact .cons (p := []) (by simp) hr hs
  obtain ⟨b', q, hF, ha⟩ := string_feed hs' ht1
  obtain ⟨p, L, hread, hB, hL⟩ := readAdjMatrix_spec _ h1 ho hF
  refine ⟨p.g, ?_, hB.isGraph hL⟩
  obtain ⟨c, l, hc, hdg⟩ := dec_cons n
  have hdet : detect (dec n ++ 10 :: s) = .adjMatrix := by rw [hc]; exact detect_digit hdg
  unfold gpReadString
  rw [hdet]
  simp only [hread, Option.bind_eq_bind, Option.bind_some, extraData, if_true, ha.read, Option.map_some]
  rfl

example : Spaced ("1 1\n0\n".toList.map Char.toNat) (rowsFrom (fun a b => decide ((a, b) ∈ [(1, 2), (1, 3)])) 3 3 1) :=
  .cons (p := []) (b := true) (r := [32, 49, 10, 48, 10]) (by decide) (by decide)
    (.cons (p := [32]) (b := true) (r := [10, 48, 10]) (by decide) (by decide)
      (.cons (p := [10]) (b := false) (r := [10]) (by decide) (by decide) (.nil [10] (by decide))))

/-! ### Directed edges in matrices -/

theorem markArcs_inOnly {g : Graph} {v : Nat} : ∀ (es row : List Nat), (∀ e ∈ es, e < g.eSize ∧ (g.E e).nbr ≤ g.N) →
    (∃ e ∈ es, (g.E e).flags &&& 96 = 32) → markArcs g v es row = some none
  | [], _, _, h => by simp at h
  | e :: es, row, h, hx => by
    have he := h e (by simp)
    unfold markArcs
    rw [getDirection_eq he.1, getNbr_eq he.1]
    simp only [Option.bind_eq_bind, Option.bind_some]
    by_cases hd : (g.E e).flags &&& 96 = INONLY
    · rw [if_pos hd]
    · rw [if_neg hd]
      have hx' : ∃ e ∈ es, (g.E e).flags &&& 96 = 32 := by
        obtain ⟨x, hx1, hx2⟩ := hx
        rcases List.mem_cons.1 hx1 with rfl | hx1
        · exact absurd hx2 hd
        · exact ⟨x, hx1, hx2⟩
      have ih := fun row => markArcs_inOnly (v := v) es row (fun x hx => h x (by simp [hx])) hx'
      by_cases hw : (g.E e).nbr > v
      · rw [if_pos hw, if_pos (by omega)]; exact ih _
      · rw [if_neg hw]; exact ih _

theorem matrixRows_inOnly {g : Graph} (hl : Lists g) {w : Nat} (w1 : 1 ≤ w) (w2 : w ≤ g.N)
    (hx : ∃ e ∈ rotOf g w, (g.E e).flags &&& 96 = 32) : ∀ k v, 1 ≤ v → v + k = g.N + 1 → v ≤ w → ∃ t, matrixRows g k v = some (t, .notok) := by
  intro k
  induction k with
  | zero => intro v _ _ _; omega
  | succ k ih =>
    intro v h1 h2 h3
    unfold matrixRows
    rw [hl.fwd v h1 (by omega)]
    simp only [Option.bind_eq_bind, Option.bind_some]
    by_cases hv : ∃ e ∈ rotOf g v, (g.E e).flags &&& 96 = 32
    · rw [markArcs_inOnly _ _ (fun e he => ⟨hl.lt v h1 (by omega) e he, (hl.range v h1 (by omega) e he).2.1⟩) hv]
      exact ⟨[], rfl⟩
    · rw [emptyRow_eq (by omega), markArcs_eq _ _ fun e he => ⟨hl.lt v h1 (by omega) e he, fun hc => hv ⟨e, he, hc⟩,
        (hl.range v h1 (by omega) e he).2.1⟩]
      have hne : v ≠ w := fun hc => hv (hc ▸ hx)
      obtain ⟨t, ht⟩ := ih (v + 1) (by omega) (by omega) (by omega)
      simp only [Option.bind_some, ht]
      exact ⟨_, rfl⟩

/-- C39, the part for matrices: writing a graph with a directed edge returns NOTOK. -/
theorem directed_matrix_partial {g : Graph} (hs : SimpleLists g) (hm : Mixed g) (hd : ¬ NoDirections g) :
    ∃ text, writeAdjMatrix g = some (text, .notok) := by
  have hl := SimpleLists.lists hs
  have hma := mixedArcs hl hm
  have : ∃ w, 1 ≤ w ∧ w ≤ g.N ∧ ∃ e ∈ rotOf g w, (g.E e).flags &&& 96 = 32 := by
    by_contra hc
    refine hd fun w w1 w2 => ⟨_, hl.entries w1 w2, fun x hx => ?_⟩
    obtain ⟨e, he, rfl⟩ := List.mem_map.1 hx
    rcases hma.dirs w w1 w2 e he with ⟨h, -⟩ | ⟨h, -⟩ | ⟨-, h⟩
    · exact h
    · exact absurd ⟨w, w1, w2, e, he, h⟩ hc
    · have hr := hl.range w w1 w2 e he
      exact absurd ⟨_, hr.1, hr.2.1, _, (hl.twins w w1 w2 e he).1, h⟩ hc
  obtain ⟨w, w1, w2, hx⟩ := this
  obtain ⟨t, ht⟩ := matrixRows_inOnly hl w1 w2 hx g.N 1 (le_refl _) (by omega) w1
  exact ⟨_, by unfold writeAdjMatrix; rw [ht]; rfl⟩

example : SimpleLists mixedFour ∧ Mixed mixedFour ∧ ¬ NoDirections mixedFour := by
  refine ⟨simpleLists_of mixedFour_reach (isSimpleB_sound (by decide +kernel)), mixedB_sound (by decide +kernel), fun h => ?_⟩
  obtain ⟨l, hl, h0⟩ := h 1 (by decide) (by decide +kernel)
  have : entries mixedFour 1 = some [(3, 32), (2, 64)] := by decide +kernel
  rw [this] at hl
  cases hl
  exact absurd (h0 (3, 32) (by simp)) (by decide)

/-! ### Telling the formats apart -/

theorem prefix_of_firstLine {s x : List Nat} (h : firstLine s = some x) : x <+: s := by
  unfold firstLine at h
  split at h
  · simp at h
  · cases h
    refine List.IsPrefix.trans (List.takeWhile_prefix _) ?_
    have key : ∀ l : List Nat, l.takeWhile (· ≠ 10) ++ (if 10 ∈ l then [10] else []) <+: l := by
      intro l
      induction l with
      | nil => simp
      | cons a l ih =>
        by_cases ha : a = 10
        · subst ha; simp
        · rw [List.takeWhile_cons_of_pos (by simpa using ha)]
          have h2 : (10 ∈ a :: l) ↔ 10 ∈ l := by simp [Ne.symm ha]
          simp only [h2, List.cons_append]
          exact (List.prefix_cons_inj a).2 ih
    exact (key _).trans (List.take_prefix _ _)

theorem detect_prefix {s x : List Nat} (hp : x <+: s) (h : detect s = .graph6) : detect x = .graph6 := by
  unfold detect at h ⊢
  split at h
  · simp at h
  · next h1 =>
    split at h
    · simp at h
    · next h2 =>
      split at h
      · simp at h
      · next h3 =>
        rw [if_neg (fun hc => h1 (hc.trans hp)), if_neg (fun hc => h2 (hc.trans hp)), if_neg]
        cases x with
        | nil => decide
        | cons c x =>
          obtain ⟨r, rfl⟩ := hp
          exact h3

/-- Every character of a line is one of those from 63 to 126. -/
theorem graph6_range {n : Nat} (hn : n ≤ 258047) (adj : Nat → Nat → Bool) : ∀ c ∈ graph6 n adj, 63 ≤ c ∧ c ≤ 126 := by
  intro c hc
  unfold graph6 orderText at hc
  rcases List.mem_append.1 hc with hc | hc
  · split at hc
    · simp only [List.mem_singleton] at hc; omega
    · simp only [List.mem_cons, List.not_mem_nil, or_false] at hc
      omega
  · have := bitText_range _ c hc
    omega

theorem detect_graph6 {n : Nat} (hn : n ≤ 258047) (adj : Nat → Nat → Bool) (tail : List Nat) :
    detect (graph6 n adj ++ tail) = .graph6 := by
  have hrg := graph6_range hn adj
  have hlen : (graph6 n adj).length = (orderText n).length + (n * (n - 1) / 2 + 5) / 6 := by
    unfold graph6
    rw [List.length_append, bitText_eq, List.length_map, List.length_range, triangle_length, columnOffset_eq]
    congr 1
    split <;> omega
  have hne : ∃ c l, graph6 n adj = c :: l := by
    unfold graph6 orderText
    split <;> exact ⟨_, _, rfl⟩
  have hget : ∀ i c, (graph6 n adj ++ tail)[i]? = some c → i < (graph6 n adj).length → 63 ≤ c := by
    intro i c hi hl
    rw [List.getElem?_append_left hl] at hi
    exact (hrg c (List.mem_of_getElem? hi)).1
  have hfirst : ∀ c, (graph6 n adj ++ tail)[0]? = some c → c < 126 → c = n + 63 ∧ n ≤ 62 := by
    intro c hc h126
    unfold graph6 orderText at hc
    split at hc
    · simp at hc; omega
    · simp at hc; omega
  unfold detect
  rw [if_neg, if_neg, if_neg]
  · obtain ⟨c, l, hc⟩ := hne
    have := (hrg c (by rw [hc]; simp)).1
    rw [hc]
    simp only [List.cons_append, List.headD_cons, isDigit_iff]
    omega
  · intro hp
    obtain ⟨r, hr⟩ := hp
    have h0 := hfirst 78 (by rw [← hr]; rfl) (by decide)
    have h1 := hget 1 61 (by rw [← hr]; rfl) (by rw [hlen, show n = 15 by omega]; decide)
    omega
  · intro hp
    obtain ⟨r, hr⟩ := hp
    have h0 := hfirst 76 (by rw [← hr]; rfl) (by decide)
    have h1 := hget 4 46 (by rw [← hr]; rfl) (by rw [hlen, show n = 13 by omega]; decide)
    omega

theorem detect_header (tail : List Nat) : detect (G6.header ++ tail) = .graph6 := by
  simp [detect, G6.header, ledaMark, isDigit]

/-- C37 A graph6 text, with or without header and whatever follows it, is taken for graph6 by gp_Read and gp_ReadFromString. -/
theorem graph6_detected {n : Nat} (hn : n ≤ 258047) (adj : Nat → Nat → Bool) {hdr : List Nat} (hh : hdr = [] ∨ hdr = G6.header)
    (tail : List Nat) (fuel : Nat) :
    detect (hdr ++ (graph6 n adj ++ tail)) = .graph6 ∧
    (∃ x, firstLine (hdr ++ (graph6 n adj ++ tail)) = some x ∧ detect x = .graph6) ∧
    gpReadString fuel (hdr ++ (graph6 n adj ++ tail)) =
      G6.readG6 ⟨false, [], chars (hdr ++ (graph6 n adj ++ tail))⟩ (.fresh 0) ∧
    gpRead fuel (hdr ++ (graph6 n adj ++ tail)) = G6.readG6 ⟨true, [], chars (hdr ++ (graph6 n adj ++ tail))⟩ (.fresh 0) := by
  have hd : detect (hdr ++ (graph6 n adj ++ tail)) = .graph6 := by
    rcases hh with rfl | rfl
    · exact detect_graph6 hn adj tail
    · exact detect_header _
  have hne : hdr ++ (graph6 n adj ++ tail) ≠ [] := by
    intro hc
    have : graph6 n adj = [] := by simp at hc; exact hc.2.1
    unfold graph6 orderText at this
    split at this <;> simp at this
  obtain ⟨x, hx⟩ : ∃ x, firstLine (hdr ++ (graph6 n adj ++ tail)) = some x := by
    unfold firstLine; rw [if_neg hne]; exact ⟨_, rfl⟩
  have hdx := detect_prefix (prefix_of_firstLine hx) hd
  refine ⟨hd, ⟨x, hx, hdx⟩, ?_, ?_⟩
  · unfold gpReadString; rw [hd]; rfl
  · unfold gpRead; rw [hx]; simp only [Option.bind_eq_bind, Option.bind_some, hdx]; rfl

/-- C37 The text of each writer is taken for the format it was written in, whether it comes from a string or from a file. -/
theorem written_detected (g : Graph) :
    (∀ text, writeAdjList g = some text → detect text = .adjList ∧ ∃ x, firstLine text = some x ∧ detect x = .adjList) ∧
    (∀ text r, writeAdjMatrix g = some (text, r) → detect text = .adjMatrix ∧ ∃ x, firstLine text = some x ∧ detect x = .adjMatrix) ∧
    (∀ text r, G6.writeG6 g = some (text, r) → detect text = .graph6 ∧ ∃ x, firstLine text = some x ∧ detect x = .graph6) := by
  refine ⟨?_, ?_, ?_⟩
  · intro text h
    unfold writeAdjList at h
    cases hl : (List.range g.N).mapM fun i => vertexText g (i + 1) with
    | none => rw [hl] at h; simp at h
    | some lines =>
      rw [hl] at h
      simp only [Option.bind_eq_bind, Option.bind_some] at h
      cases h
      obtain ⟨x, hx⟩ := firstLine_adj (dec g.N ++ [10] ++ lines.flatten)
      refine ⟨detect_adj _, _, ?_, detect_adj x⟩
      rw [← hx]; simp
  · intro text r h
    unfold writeAdjMatrix at h
    cases hl : matrixRows g g.N 1 with
    | none => rw [hl] at h; simp at h
    | some p =>
      obtain ⟨rows, r'⟩ := p
      rw [hl] at h
      simp only [Option.bind_eq_bind, Option.bind_some] at h
      cases h
      obtain ⟨c, l, hc, hdg⟩ := dec_cons g.N
      rw [hc]
      obtain ⟨x, hx⟩ := firstLine_digit hdg (l ++ [10] ++ rows)
      exact ⟨detect_digit hdg, _, hx, detect_digit hdg⟩
  · intro text r h
    have : ∃ t, text = G6.header ++ t := by
      unfold G6.writeG6 at h
      cases hw : G6.writeGraph g with
      | none => rw [hw] at h; simp at h
      | some p =>
        rw [hw] at h
        simp only [Option.bind_eq_bind, Option.bind_some] at h
        cases h
        exact ⟨_, rfl⟩
    obtain ⟨t, rfl⟩ := this
    obtain ⟨x, hx⟩ : ∃ x, firstLine (G6.header ++ t) = some x := by
      unfold firstLine; rw [if_neg (by simp [G6.header])]; exact ⟨_, rfl⟩
    exact ⟨detect_header t, x, hx, detect_prefix (prefix_of_firstLine hx) (detect_header t)⟩

/-! ### Reading past the end -/

/-- C43 is false: "N=1\n1" ends after the number of its vertex, the character after it is skipped without looking, and the next
number is looked for behind the end of the buffer. -/
theorem read_past_end_false (fuel : Nat) : gpReadString fuel ("N=1\n1".toList.map Char.toNat) = none := by
  cases fuel <;> rfl

/-- C43 is false of matrices too: a string with an order and no flag uses a variable that was never set. -/
theorem read_unset_false (fuel : Nat) : gpReadString fuel ("3".toList.map Char.toNat) = none := by
  cases fuel <;> rfl

theorem dropWhile_idem (l : List Nat) : (l.dropWhile isSpace).dropWhile isSpace = l.dropWhile isSpace := by
  induction l with
  | nil => rfl
  | cons a l ih =>
    by_cases h : isSpace a = true
    · rw [List.dropWhile_cons_of_pos h, ih]
    · rw [List.dropWhile_cons_of_neg h, List.dropWhile_cons_of_neg h]

theorem string_flag {b : StrBuf} {s : List Nat} (h : Ahead b s) :
    ∃ b' s', string.flag b = some (b', (scanDigit s).2) ∧ Ahead b' s' := by
  obtain ⟨b1, h1, k1⟩ := h.space
  obtain ⟨b2, h2, k2⟩ := k1.integer
  refine ⟨b2, _, ?_, k2⟩
  have : scanDigit (s.dropWhile isSpace) = scanDigit s := by unfold scanDigit; rw [dropWhile_idem]
  simp [string, h1, k1.read, this, h2]

theorem readRow_stays {n v : Nat} (hv : 1 ≤ v) : ∀ (k w : Nat) (b : StrBuf) (s : List Nat) (g : Graph) (f : Option Int) (L : List (Nat × Nat)),
    Built n L g → Ahead b s → f.isSome = true ∨ (scanDigit s).2.isSome = true → v < w → w + k = n + 1 →
    (∀ p ∈ L, p.1 < v ∨ (p.1 = v ∧ p.2 < w)) →
    ∃ b' s' g' f' L', readRow string v k w b g f = some (b', g', f', .ok) ∧ Built n L' g' ∧ Ahead b' s' ∧
      (f'.isSome = true ∨ (scanDigit s').2.isSome = true) ∧ (∀ p ∈ L', p.1 ≤ v) := by
  intro k
  induction k with
  | zero =>
    intro w b s g f L hB ha hf hvw hwk hL
    exact ⟨b, s, g, f, L, rfl, hB, ha, hf, fun p hp => by have := hL p hp; omega⟩
  | succ k ih =>
    intro w b s g f L hB ha hf hvw hwk hL
    obtain ⟨b1, s1, h1, ha1⟩ := string_flag ha
    obtain ⟨y, hy⟩ : ∃ y, ((scanDigit s).2 <|> f) = some y := by
      cases hx : (scanDigit s).2 with
      | some y => exact ⟨y, rfl⟩
      | none =>
        rw [hx] at hf
        obtain ⟨y, hy⟩ := Option.isSome_iff_exists.1 (hf.resolve_right (by simp))
        exact ⟨y, by rw [hy]; rfl⟩
    unfold readRow
    rw [h1]
    simp only [Option.bind_eq_bind, Option.bind_some, hy]
    by_cases h0 : y = 0
    · rw [if_neg (by simpa using h0)]
      obtain ⟨b', s', g', f', L', r⟩ := ih (w + 1) b1 s1 g (some y) L hB ha1 (.inl rfl) (by omega) (by omega) (by
        intro p hp; have := hL p hp; omega)
      exact ⟨b', s', g', f', L', r⟩
    · rw [if_pos h0]
      have hno : (v, w) ∉ L := fun hc => by have := hL _ hc; simp only at this; omega
      obtain ⟨g1, e1, B1⟩ := hB.add hv hvw (by omega) hno
      obtain ⟨b', s', g', f', L', r⟩ := ih (w + 1) b1 s1 g1 (some y) _ B1 ha1 (.inl rfl) (by omega) (by omega) (by
        intro p hp
        rcases List.mem_append.1 hp with hp | hp
        · have := hL p hp; omega
        · simp only [List.mem_singleton] at hp; subst hp; simp)
      refine ⟨b', s', g', f', L', ?_, r.2⟩
      rw [e1]
      simpa using r.1

theorem readRows_stays {n : Nat} : ∀ (k v : Nat) (b : StrBuf) (s : List Nat) (g : Graph) (f : Option Int) (L : List (Nat × Nat)),
    Built n L g → Ahead b s → f.isSome = true ∨ (scanDigit s).2.isSome = true → 1 ≤ v → v + k = n + 1 → (∀ p ∈ L, p.1 < v) →
    ∃ b' s' g' L', readRows string k v b g f = some (b', g', .ok) ∧ Built n L' g' ∧ Ahead b' s' := by
  intro k
  induction k with
  | zero =>
    intro v b s g f L hB ha hf hv hvk hL
    exact ⟨b, s, g, L, rfl, hB, ha⟩
  | succ k ih =>
    intro v b s g f L hB ha hf hv hvk hL
    have hvs : v < g.vSize := by unfold vSize; rw [hB.order]; omega
    have hr : g.rdV v = some (g.V v) := by unfold rdV; rw [if_pos hvs]
    have hw : g.wrV v { g.V v with index := v } = some { g with V := Function.update g.V v { g.V v with index := v } } := by
      unfold wrV; rw [if_pos hvs]
    obtain ⟨b1, s1, g1, f1, L1, r1, r2, r3, r4, r5⟩ := readRow_stays hv (n - v) (v + 1) b s _ f L (hB.mark v v) ha hf (by omega) (by omega) (by
      intro p hp; have := hL p hp; omega)
    obtain ⟨b', s', g', L', q1, q2⟩ := ih (v + 1) b1 s1 g1 f1 L1 r2 r3 r4 (by omega) (by omega) (by
      intro p hp; have := r5 p hp; omega)
    refine ⟨b', s', g', L', ?_, q2⟩
    unfold readRows
    rw [hr]
    simp only [Option.bind_eq_bind, Option.bind_some]
    rw [hw]
    simp only [Option.bind_some]
    change (readRow string v (g.N - v) (v + 1) b { g with V := Function.update g.V v { g.V v with index := v } } f).bind _ = _
    have hsub : g.N - v = n - v := by rw [hB.order]
    rw [hsub, r1]
    simp [q1]

/-- C43, the part for matrices: a string that starts with an order from 1 on, followed by anything that gives at least one flag,
is read without leaving the buffer, and the result is OK and a simple undirected graph of that order. Missing: adjacency
lists other than the written ones (C40, C41), for which the property is false; graph6 (C36). -/
theorem matrix_string_stays_partial {n : Nat} (h1 : 1 ≤ n) (hn : n < 2147483648) {r : List Nat} (h0 : 0 ∉ r) (hd : isDigit (r.headD 0) = false)
    (hf : (scanDigit r).2.isSome = true) (fuel : Nat) :
    ∃ g, gpReadString fuel (dec n ++ r) = some (some g, .ok) ∧ Reach g ∧ g.N = n ∧ IsSimple g ∧ Undirected g := by
  have hnn : 0 ∉ dec n ++ r := by
    intro hc
    rcases List.mem_append.1 hc with hc | hc
    · have := isDigit_iff.1 (dec_digit hc); omega
    · exact h0 hc
  obtain ⟨t1, ho, ht1⟩ := string_faithful.number (strBuf (dec n ++ r)) [] (n : Int) r (by simp) (by omega) hd (by
    rw [decInt_nat]; exact strBuf_ahead hnn)
  have hsd : scanDigit (r.dropWhile isSpace) = scanDigit r := by unfold scanDigit; rw [dropWhile_idem]
  obtain ⟨b', s', g', L', q1, q2, q3⟩ := readRows_stays n 1 t1 _ _ none [] (Built.init h1) ht1 (.inr (by rw [hsd]; exact hf)) (le_refl _)
    (by omega) (by simp)
  have hread : readAdjMatrix string (strBuf (dec n ++ r)) = some (b', some { g := g' }, .ok) := by
    have hng : newGraph (n : Int) = some { g := Graph.init n (6 * n) } := by
      unfold newGraph; rw [if_neg (by omega)]; rfl
    unfold readAdjMatrix readOrder
    rw [ho]
    simp only [Option.bind_eq_bind, Option.bind_some, Option.getD_some]
    change ((match newGraph (n : Int) with
      | none => some (t1, none, Res.notok)
      | some s => (readRows string s.g.N 1 t1 s.g none).bind fun x => some (x.1, some (s.setG x.2.1), x.2.2))) = _
    rw [hng]
    simp only
    change (readRows string n 1 t1 (Graph.init n (6 * n)) none).bind _ = _
    rw [q1]
    rfl
  obtain ⟨c, l, hc, hdg⟩ := dec_cons n
  have hdet : detect (dec n ++ r) = .adjMatrix := by rw [hc]; exact detect_digit hdg
  refine ⟨g', ?_, q2.reach, q2.order, (q2.isGraph (nb := fun a b => decide ((a, b) ∈ L')) ?_).simple, q2.undir⟩
  · unfold gpReadString
    rw [hdet]
    simp only [hread, Option.bind_eq_bind, Option.bind_some, extraData, if_true, q3.read, Option.map_some]
    rfl
  · intro a b
    constructor
    · intro h; exact ⟨(q2.range _ h).1, (q2.range _ h).2.1, (q2.range _ h).2.2, by simpa using h⟩
    · rintro ⟨-, -, -, h⟩; simpa using h

/-- A truncated matrix: "4\n 01". -/
example : 0 ∉ ("\n 01".toList.map Char.toNat) ∧ (scanDigit ("\n 01".toList.map Char.toNat)).2.isSome = true := by decide

end Verif.Props
