import Verif.Draw.Model
import Verif.IO.Lex
import Verif.Graph.Store

/-
Model of the drawing data written after a graph and read with it (graphDrawPlanar_Extensions.c 553-674), and what is read
from the text written. Not modelled: the size of the buffer (64 characters for each line of at most 49), a failing allocation.
-/
namespace Verif
namespace Draw
open Graph Text SB

/-- `<DrawPlanar>` (graphDrawPlanar.h 17). -/
def openTag : List Nat := [60, 68, 114, 97, 119, 80, 108, 97, 110, 97, 114, 62]
/-- `</DrawPlanar>`. -/
def closeTag : List Nat := [60, 47, 68, 114, 97, 119, 80, 108, 97, 110, 97, 114, 62]

/-- `"%d: %d %d %d\n"`, graphDrawPlanar_Extensions.c 643, 656. -/
def line (i p q r : Int) : List Nat :=
  decInt i ++ 58 :: 32 :: (decInt p ++ 32 :: (decInt q ++ 32 :: (decInt r ++ [10])))

/-- The line of a vertex, graphDrawPlanar_Extensions.c 641-649. -/
def vertexLine (c : Ctx) (g : Graph) (v : Nat) : Option (List Nat) := do
  let d ← rdDV c g v
  return line ((v : Int) - if zeroBased g then 1 else 0) d.pos d.start d.stop

/-- The line of an arc, graphDrawPlanar_Extensions.c 652-663: none if its record is not in use. -/
def arcLine (c : Ctx) (g : Graph) (e : Nat) : Option (List Nat) := do
  if (← g.getNbr e) = 0 then return []
  else do
    let d ← rdDE c g e
    return line ((e : Int) - if zeroBased g then 2 else 0) d.pos d.start d.stop

/-- The edge records up to `gp_EdgeInUseIndexBound`. -/
def slots (g : Graph) : List Nat := List.range' 2 (2 * (g.M + g.holes.length))

/-- `_DrawPlanar_WritePostprocess`, graphDrawPlanar_Extensions.c 611-674: the text. -/
def writeDrawing (c : Ctx) (g : Graph) : Option (List Nat) := do
  let vs ← (List.range' 1 g.N).mapM (vertexLine c g)
  let es ← (slots g).mapM (arcLine c g)
  return openTag ++ 10 :: (vs.flatten ++ (es.flatten ++ (closeTag ++ [10])))

/-- sscanf with `" %d%c %d %d %d"`, graphDrawPlanar_Extensions.c 582-585, 594-597: the three values after it, given those before it. -/
def scanLine (s : List Nat) (p q r : Int) : Option (Int × Int × Int) := do
  let (s, x) ← scanInt s
  match x, s with
  | some _, _ :: s => do
    let (s, a) ← scanInt s
    match a with
    | none => return (p, q, r)
    | some a => do
      let (s, b) ← scanInt s
      match b with
      | none => return (a, q, r)
      | some b => do
        let (_, d) ← scanInt s
        return (a, b, d.getD r)
  | _, _ => return (p, q, r)

/-- `strchr(extraData, '\n') + 1`: undefined if there is no such character. -/
def nextLine : List Nat → Option (List Nat)
  | [] => none
  | c :: s => if c = 10 then some s else nextLine s

/-- `strstr`: from the first occurrence of the tag on. -/
def findTag : List Nat → Option (List Nat)
  | [] => none
  | c :: s => if openTag.isPrefixOf (c :: s) then some (c :: s) else findTag s

/-- One vertex, graphDrawPlanar_Extensions.c 582-587. -/
def readVertexLine (g : Graph) (x : List Nat × Ctx) (v : Nat) : Option (List Nat × Ctx) := do
  let d ← rdDV x.2 g v
  let (p, q, r) ← scanLine x.1 d.pos d.start d.stop
  let c ← wrDV x.2 g v { d with pos := p, start := q, stop := r }
  let s ← nextLine x.1
  return (s, c)

/-- One arc, graphDrawPlanar_Extensions.c 594-599. -/
def readArcLine (g : Graph) (x : List Nat × Ctx) (e : Nat) : Option (List Nat × Ctx) := do
  let d ← rdDE x.2 g e
  let (p, q, r) ← scanLine x.1 d.pos d.start d.stop
  let c ← wrDE x.2 g e ⟨p, q, r⟩
  let s ← nextLine x.1
  return (s, c)

/-- `_DrawPlanar_ReadPostprocess`, graphDrawPlanar_Extensions.c 553-606, for a text: the context if it returns OK. -/
def readDrawing (g : Graph) (c : Ctx) (s : List Nat) : Option (Option Ctx) :=
  if s = [] then some (some c)
  else match findTag s with
    | none => some none
    | some s =>
      if s.length < openTag.length + 1 then none
      else do
        let x ← (List.range' 1 g.N).foldlM (readVertexLine g) (s.drop (openTag.length + 1), c)
        let x ← (slots g).foldlM (readArcLine g) x
        return some x.2

/-- gp_WriteToString of a graph with drawing data, adjacency list format, graphIO.c 926-974. -/
def writeBoth (c : Ctx) (g : Graph) : Option (List Nat) := do
  let a ← writeAdjList g
  let b ← writeDrawing c g
  return a ++ b

/-- gp_ReadFromString of a text in adjacency list format into a graph with the drawing feature, graphIO.c 505-541. The data
start as `_DrawPlanar_InitStructures` sets them. -/
def readBoth (fuel : Nat) (s : List Nat) : Option (Option (Graph × Ctx)) := do
  let (b, p, r) ← readAdjList string fuel (strBuf s)
  match p, r with
  | some p, .ok => do
    let rest ← readString b
    let c ← readDrawing p.g {} rest
    return c.map fun c => (p.g, c)
  | _, _ => return none

/-- A value of type int. -/
def IsInt (x : Int) : Prop := -2147483648 ≤ x ∧ x < 2147483648

theorem scanLine_line {i p q r : Int} (hi : IsInt i) (hp : IsInt p) (hq : IsInt q) (hr : IsInt r) (rest : List Nat) (a b d : Int) :
    scanLine (line i p q r ++ rest) a b d = some (p, q, r) := by
  have e : line i p q r ++ rest = [] ++ (decInt i ++ (58 :: ([32] ++ (decInt p ++ ([32] ++ (decInt q ++ ([32] ++ (decInt r ++ (10 :: rest))))))))) := by
    simp [line]
  have sp : ∀ c ∈ [32], isSpace c = true := by simp [isSpace]
  unfold scanLine
  rw [e, scanInt_decInt (by simp) rfl hi]
  simp only [Option.bind_eq_bind, Option.bind_some]
  rw [scanInt_decInt sp rfl hp]
  simp only [Option.bind_some]
  rw [scanInt_decInt sp rfl hq]
  simp only [Option.bind_some]
  rw [scanInt_decInt sp rfl hr]
  rfl

theorem nextLine_append {a : List Nat} (h : 10 ∉ a) (b : List Nat) : nextLine (a ++ 10 :: b) = some b := by
  induction a with
  | nil => rfl
  | cons c a ih =>
    rw [List.mem_cons, not_or] at h
    rw [List.cons_append, nextLine, if_neg (fun e => h.1 e.symm), ih h.2]

theorem decInt_noLine (x : Int) : 10 ∉ decInt x := by
  have hd : ∀ n, 10 ∉ dec n := fun n h => by
    have := isDigit_iff.1 (dec_digit h); omega
  unfold decInt
  split
  · rw [List.mem_cons]; rintro (h | h)
    · omega
    · exact hd _ h
  · exact hd _

theorem nextLine_line (i p q r : Int) (rest : List Nat) : nextLine (line i p q r ++ rest) = some rest := by
  have e : line i p q r ++ rest = (decInt i ++ 58 :: 32 :: (decInt p ++ 32 :: (decInt q ++ 32 :: decInt r))) ++ 10 :: rest := by
    simp [line]
  rw [e]
  refine nextLine_append ?_ _
  simp only [List.mem_append, List.mem_cons, not_or]
  exact ⟨decInt_noLine _, by decide, by decide, decInt_noLine _, by decide, decInt_noLine _, by decide, decInt_noLine _⟩

theorem line_noNul (i p q r : Int) : 0 ∉ line i p q r := by
  unfold line
  simp only [List.mem_append, List.mem_cons, not_or]
  exact ⟨decInt_noNul _, by decide, by decide, decInt_noNul _, by decide, decInt_noNul _, by decide, decInt_noNul _, by decide⟩

/-- All values are of type int. -/
structure Ints (c : Ctx) : Prop where
  vertex : ∀ v, IsInt (c.VI v).pos ∧ IsInt (c.VI v).start ∧ IsInt (c.VI v).stop
  edge : ∀ e, IsInt (c.E e).pos ∧ IsInt (c.E e).start ∧ IsInt (c.E e).stop

theorem mapM_flatten {f : Nat → Option (List Nat)} {F : Nat → List Nat} : ∀ {l : List Nat}, (∀ x ∈ l, f x = some (F x)) →
    l.mapM f = some (l.map F) := by
  intro l
  induction l with
  | nil => intro _; rfl
  | cons a l ih =>
    intro h
    rw [List.mapM_cons, h a (by simp), ih fun x hx => h x (by simp [hx])]
    rfl

/-- The line written for a vertex. -/
def vtext (c : Ctx) (g : Graph) (v : Nat) : List Nat :=
  line ((v : Int) - if zeroBased g then 1 else 0) (c.VI v).pos (c.VI v).start (c.VI v).stop
/-- The line written for an arc. -/
def etext (c : Ctx) (g : Graph) (e : Nat) : List Nat :=
  line ((e : Int) - if zeroBased g then 2 else 0) (c.E e).pos (c.E e).start (c.E e).stop

/-- The records in use, in the order of the array. -/
def used (g : Graph) : List Nat := (slots g).filter fun e => (g.E e).nbr ≠ 0

theorem writeDrawing_eq {c : Ctx} {g : Graph} {rot} (hI : Inv g rot) : writeDrawing c g =
    some (openTag ++ 10 :: ((List.range' 1 g.N).flatMap (vtext c g) ++ ((used g).flatMap (etext c g) ++ (closeTag ++ [10])))) := by
  have h1 : (List.range' 1 g.N).mapM (vertexLine c g) = some ((List.range' 1 g.N).map (vtext c g)) := by
    refine mapM_flatten fun v hv => ?_
    rw [List.mem_range'_1] at hv
    unfold vertexLine rdDV
    rw [if_pos (by omega)]
    rfl
  have h2 : (slots g).mapM (arcLine c g) = some ((slots g).map fun e => if (g.E e).nbr = 0 then [] else etext c g e) := by
    refine mapM_flatten fun e he => ?_
    unfold slots at he
    rw [List.mem_range'_1] at he
    have hlt : e < g.eSize := by have := hI.inUse_le; unfold inUse at this; omega
    unfold arcLine getNbr rdE rdDE
    rw [if_pos hlt, if_pos hlt]
    simp only [Option.bind_eq_bind, Option.bind_some]
    show (if (g.E e).nbr = 0 then _ else _) = _
    by_cases h0 : (g.E e).nbr = 0
    · rw [if_pos h0, if_pos h0]; rfl
    · rw [if_neg h0, if_neg h0]; rfl
  have h3 : ∀ l : List Nat, (l.map fun e => if (g.E e).nbr = 0 then [] else etext c g e).flatten =
      (l.filter fun e => (g.E e).nbr ≠ 0).flatMap (etext c g) := by
    intro l
    induction l with
    | nil => rfl
    | cons a l ih =>
      rw [List.map_cons, List.flatten_cons, ih, List.filter_cons]
      by_cases ha : (g.E a).nbr = 0
      · simp [ha]
      · simp [ha]
  unfold writeDrawing
  rw [h1, h2]
  simp only [Option.bind_eq_bind, Option.bind_some, h3, List.flatMap]
  rfl

/-- The data of `d` set for the vertex `v`. -/
def setV (c : Ctx) (v : Nat) (d : DVert) : Ctx :=
  { c with VI := Function.update c.VI v ({ c.VI v with pos := d.pos, start := d.start, stop := d.stop }) }

/-- The loop over the vertices. -/
theorem readVerts_spec {c : Ctx} {g g' : Graph} (hc : Ints c) (hg : g.N < 2147483648) (hN : g'.N = g.N) (rest : List Nat) :
    ∀ (k v : Nat) (c0 : Ctx), 1 ≤ v → v + k = g.N + 1 →
    ∃ c1, (List.range' v k).foldlM (readVertexLine g') ((List.range' v k).flatMap (vtext c g) ++ rest, c0) = some (rest, c1) ∧
      c1.E = c0.E ∧ (∀ w, v ≤ w → w ≤ g.N → (c1.VI w).pos = (c.VI w).pos ∧ (c1.VI w).start = (c.VI w).start ∧ (c1.VI w).stop = (c.VI w).stop) ∧
      ∀ w, w < v → c1.VI w = c0.VI w := by
  intro k
  induction k with
  | zero => intro v c0 h1 h2; exact ⟨c0, rfl, rfl, fun w _ _ => by omega, fun _ _ => rfl⟩
  | succ k ih =>
    intro v c0 h1 h2
    have hs : readVertexLine g' ((List.range' v (k + 1)).flatMap (vtext c g) ++ rest, c0) v =
        some ((List.range' (v + 1) k).flatMap (vtext c g) ++ rest, setV c0 v (c.VI v)) := by
      unfold readVertexLine rdDV wrDV
      rw [if_pos (by omega)]
      simp only [Option.bind_eq_bind, Option.bind_some]
      rw [List.range'_succ, List.flatMap_cons, List.append_assoc]
      unfold vtext
      have hi : IsInt ((v : Int) - if zeroBased g = true then 1 else 0) := by unfold IsInt; split <;> omega
      rw [scanLine_line hi (hc.vertex v).1 (hc.vertex v).2.1 (hc.vertex v).2.2]
      simp only [Option.bind_some, nextLine_line]
      rw [if_pos (by omega)]
      rfl
    obtain ⟨c1, e1, e2, e3, e4⟩ := ih (v + 1) (setV c0 v (c.VI v)) (by omega) (by omega)
    refine ⟨c1, ?_, e2, ?_, ?_⟩
    · rw [show List.range' v (k + 1) = v :: List.range' (v + 1) k from rfl] at hs ⊢
      rw [List.foldlM_cons, hs]
      exact e1
    · intro w hw hw'
      by_cases hv : w = v
      · subst hv
        rw [e4 _ (by omega)]
        simp [setV]
      · exact e3 w (by omega) hw'
    · intro w hw
      rw [e4 w (by omega)]
      show Function.update c0.VI v _ w = _
      rw [Function.update_of_ne (by omega)]

/-- The loop over the arcs: the records of `l` are given to the records from `e` on. -/
theorem readArcs_spec {c : Ctx} {g g' : Graph} (hc : Ints c) (rest : List Nat) :
    ∀ (l : List Nat) (e : Nat) (c0 : Ctx), (∀ x ∈ l, 2 ≤ x ∧ x < 2147483648) → e + l.length ≤ g'.eSize →
    ∃ c1, (List.range' e l.length).foldlM (readArcLine g') (l.flatMap (etext c g) ++ rest, c0) = some (rest, c1) ∧
      c1.VI = c0.VI ∧ (∀ k (h : k < l.length), c1.E (e + k) = c.E l[k]) ∧ ∀ x, x < e → c1.E x = c0.E x := by
  intro l
  induction l with
  | nil => intro e c0 _ _; exact ⟨c0, rfl, rfl, fun k h => absurd h (by simp), fun _ _ => rfl⟩
  | cons a l ih =>
    intro e c0 hl he
    rw [List.length_cons] at he
    have hs : readArcLine g' ((a :: l).flatMap (etext c g) ++ rest, c0) e =
        some (l.flatMap (etext c g) ++ rest, { c0 with E := Function.update c0.E e (c.E a) }) := by
      unfold readArcLine rdDE wrDE
      rw [if_pos (by omega)]
      simp only [Option.bind_eq_bind, Option.bind_some]
      rw [List.flatMap_cons, List.append_assoc]
      unfold etext
      have hi : IsInt ((a : Int) - if zeroBased g = true then 2 else 0) := by
        have := hl a (by simp)
        unfold IsInt; split <;> omega
      rw [scanLine_line hi (hc.edge a).1 (hc.edge a).2.1 (hc.edge a).2.2]
      simp only [Option.bind_some, nextLine_line]
      rw [if_pos (by omega)]
      rfl
    obtain ⟨c1, e1, e2, e3, e4⟩ := ih (e + 1) { c0 with E := Function.update c0.E e (c.E a) } (fun x hx => hl x (by simp [hx])) (by omega)
    refine ⟨c1, ?_, e2, ?_, ?_⟩
    · rw [show List.range' e (a :: l).length = e :: List.range' (e + 1) l.length from rfl]
      rw [List.foldlM_cons, hs]
      exact e1
    · intro k hk
      cases k with
      | zero =>
        rw [Nat.add_zero, e4 _ (by omega)]
        simp
      | succ k =>
        have := e3 k (by simpa using hk)
        rw [show e + (k + 1) = e + 1 + k by omega, this]
        rfl
    · intro x hx
      rw [e4 x (by omega)]
      show Function.update c0.E e _ x = _
      rw [Function.update_of_ne (by omega)]

theorem used_length {g : Graph} {rot} (hI : Inv g rot) (hp : ∀ e u, e ∈ rot u → 1 ≤ u) : (used g).length = 2 * g.M := by
  rw [← hI.count]
  apply List.Perm.length_eq
  have hn : (used g).Nodup := (List.nodup_range' (s := 2) (n := 2 * (g.M + g.holes.length)) (step := 1)).filter _
  rw [List.perm_ext_iff_of_nodup hn (nodup_allArcs hI.links)]
  intro e
  rw [mem_allArcs hI.links]
  unfold used slots
  rw [List.mem_filter, List.mem_range'_1]
  constructor
  · rintro ⟨h1, h2⟩
    by_contra hc
    rw [hI.zero e (fun v hv => hc ⟨v, hv⟩)] at h2
    exact absurd h2 (by decide)
  · rintro ⟨u, hu⟩
    have h1 := (hI.links.arc u e hu).1
    have h2 := hI.below u e hu
    unfold inUse at h2
    refine ⟨by omega, ?_⟩
    have h3 := hp _ _ (hI.twins u e hu)
    simp only [decide_eq_true_eq, ne_eq]
    omega

/-- What is read from the text of a drawing. -/
theorem readDrawing_spec {c c0 : Ctx} {g g' : Graph} {rot rot'} (hI : Inv g rot) (hp : ∀ e u, e ∈ rot u → 1 ≤ u) (hI' : Inv g' rot')
    (hc : Ints c) (hg : g.N < 2147483648) (hE : g.eSize ≤ 2147483648) (hN : g'.N = g.N) (hM : g'.M = g.M) (hh : g'.holes = [])
    {s : List Nat} (h : writeDrawing c g = some s) :
    ∃ c', readDrawing g' c0 s = some (some c') ∧
      (∀ v, 1 ≤ v → v ≤ g.N → (c'.VI v).pos = (c.VI v).pos ∧ (c'.VI v).start = (c.VI v).start ∧ (c'.VI v).stop = (c.VI v).stop) ∧
      ∀ k (h : k < (used g).length), c'.E (2 + k) = c.E (used g)[k] := by
  rw [writeDrawing_eq hI] at h
  obtain rfl := Option.some.inj h
  have hlen := used_length hI hp
  obtain ⟨c1, a1, a2, a3, a4⟩ := readVerts_spec (g' := g') hc hg hN ((used g).flatMap (etext c g) ++ (closeTag ++ [10])) g.N 1 c0 (by omega) (by omega)
  obtain ⟨c2, b1, b2, b3, b4⟩ := readArcs_spec (g := g) (g' := g') hc (closeTag ++ [10]) (used g) 2 c1 (by
    intro x hx
    have := List.mem_of_mem_filter hx
    unfold slots at this
    rw [List.mem_range'_1] at this
    have h2 := hI.inUse_le
    unfold inUse at h2
    omega) (by
    have := hI'.room; have := hI'.even
    rw [hh, List.length_nil] at *
    unfold eSize; omega)
  refine ⟨c2, ?_, ?_, b3⟩
  · unfold readDrawing
    rw [if_neg (by simp [openTag])]
    have hf : ∀ r, findTag (openTag ++ 10 :: r) = some (openTag ++ 10 :: r) := by
      intro r
      have hp : openTag.isPrefixOf (openTag ++ 10 :: r) = true := by
        rw [List.isPrefixOf_iff_prefix]; exact List.prefix_append _ _
      unfold openTag at hp ⊢
      rw [List.cons_append] at hp ⊢
      rw [findTag]
      unfold openTag
      rw [if_pos hp]
    rw [hf]
    simp only
    rw [if_neg (by simp)]
    have hd : ∀ r : List Nat, (openTag ++ 10 :: r).drop (openTag.length + 1) = r := by intro r; rfl
    rw [hd, hN]
    simp only [Option.bind_eq_bind]
    rw [a1, Option.bind_some]
    have hsl : slots g' = List.range' 2 (used g).length := by unfold slots; rw [hh, hlen, hM]; rfl
    rw [hsl, b1]
    rfl
  · intro v h1 h2
    rw [b2]
    exact a3 v h1 h2

end Draw
end Verif
