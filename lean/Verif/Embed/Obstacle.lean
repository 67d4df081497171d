import Verif.Embed.State
import Verif.Map.Minor

/-
Places at which the walk down can not go on: each gives one of the two minors no plane map has.
-/
namespace Verif.Embed
open Verif Verif.Graph Verif.EGraph Equiv Equiv.Perm Verif.Map Function Relation
open Verif.Props (AncEq Anc)

/-- Two vertices with an edge between them, or one of them the additional vertex, which has the number 0. -/
def Base.Adj (B : Base) (x y : Nat) : Prop :=
  (∃ d : B.D, B.own d.1 = x ∧ B.own (twin d.1) = y) ∨ (B.ap = true ∧ ((x = 0 ∧ 1 ≤ y ∧ y ≤ B.N) ∨ (y = 0 ∧ 1 ≤ x ∧ x ≤ B.N)))

theorem Base.Adj.symm {B : Base} {x y : Nat} (h : B.Adj x y) : B.Adj y x := by
  rcases h with ⟨d, h1, h2⟩ | ⟨h1, h2⟩
  · exact .inl ⟨B.α d, h2, by rw [B.α_val, twin_twin]; exact h1⟩
  · exact .inr ⟨h1, h2.symm⟩

/-- A minor that no plane map has. -/
def Base.Bad (B : Base) : Prop := (∃ S, Minor B.Adj adjK5 S) ∨ ∃ S, Minor B.Adj adjK33 S

variable {B : Base} {Pl : Plan B} {G : Gh B.D} {v c0 c : Nat} {F : List Nat}

theorem Plan.tree (Pl : Plan B) {c : Nat} (h : B.Child c) : B.Adj (B.par c) c :=
  .inl ⟨⟨_, Pl.ta_arc c h⟩, (Pl.ta_own c h).1, (Pl.ta_own c h).2⟩

theorem Plan.arc (Pl : Plan B) {u f : Nat} (h : f ∈ Pl.fw0 u) : B.Adj u (Pl.nb f) :=
  .inl ⟨⟨_, Pl.fw_arc u f h⟩, (Pl.fw_own u f h).1, (Pl.fw_own u f h).2⟩

/-- Paths in a set of vertices. -/
def Base.Way (B : Base) (S : Nat → Prop) : Nat → Nat → Prop := ReflTransGen fun x y => B.Adj x y ∧ S x ∧ S y

/-- A connected set. -/
def Base.Con (B : Base) (S : Nat → Prop) : Prop := ∀ a b, S a → S b → B.Way S a b

def Base.Touch (B : Base) (S S' : Nat → Prop) : Prop := ∃ a b, S a ∧ S' b ∧ B.Adj a b

def Apart (S S' : Nat → Prop) : Prop := ∀ a, S a → ¬ S' a

theorem Base.Touch.symm {S S' : Nat → Prop} (h : B.Touch S S') : B.Touch S' S := by
  obtain ⟨a, b, h1, h2, h3⟩ := h
  exact ⟨b, a, h2, h1, h3.symm⟩

theorem Base.Touch.mono {S S' R R' : Nat → Prop} (h : B.Touch S S') (h1 : ∀ x, S x → R x) (h2 : ∀ x, S' x → R' x) : B.Touch R R' := by
  obtain ⟨a, b, k1, k2, k3⟩ := h
  exact ⟨a, b, h1 a k1, h2 b k2, k3⟩

theorem Apart.symm {S S' : Nat → Prop} (h : Apart S S') : Apart S' S := fun a h1 h2 => h a h2 h1

theorem Apart.mono {S S' R R' : Nat → Prop} (h : Apart R R') (h1 : ∀ x, S x → R x) (h2 : ∀ x, S' x → R' x) : Apart S S' :=
  fun a k1 k2 => h a (h1 a k1) (h2 a k2)

theorem Base.Way.symm {S : Nat → Prop} {a b : Nat} (h : B.Way S a b) : B.Way S b a := by
  induction h with
  | refl => exact .refl
  | tail _ k ih => exact ReflTransGen.head ⟨k.1.symm, k.2.2, k.2.1⟩ ih

theorem Base.Way.mono {S S' : Nat → Prop} {a b : Nat} (h : B.Way S a b) (hs : ∀ x, S x → S' x) : B.Way S' a b := by
  induction h with
  | refl => exact .refl
  | tail _ k ih => exact ih.tail ⟨k.1, hs _ k.2.1, hs _ k.2.2⟩

theorem con_centre {S : Nat → Prop} {z : Nat} (h : ∀ a, S a → B.Way S z a) : B.Con S :=
  fun a b ha hb => (h a ha).symm.trans (h b hb)

theorem con_one (x : Nat) : B.Con (· = x) := by
  intro a b ha hb
  rw [ha, hb]; exact .refl

theorem con_or {S S' : Nat → Prop} (h : B.Con S) (h' : B.Con S') (ht : B.Touch S S' ∨ ∀ x, ¬ S' x) : B.Con fun x => S x ∨ S' x := by
  rcases ht with ⟨p, q, hp, hq, hpq⟩ | ht
  · refine con_centre (z := p) ?_
    rintro a (ha | ha)
    · exact (h p a hp ha).mono fun _ => .inl
    · refine ReflTransGen.head ⟨hpq, .inl hp, .inr hq⟩ ?_
      exact (h' q a hq ha).mono fun _ => .inr
  · intro a b ha hb
    have ha := ha.resolve_right (ht a)
    have hb := hb.resolve_right (ht b)
    exact (h a b ha hb).mono fun _ => .inl

theorem mk33 {A0 A1 A2 B0 B1 B2 : Nat → Prop} (a0 : B.Con A0) (a1 : B.Con A1) (a2 : B.Con A2) (b0 : B.Con B0) (b1 : B.Con B1)
    (b2 : B.Con B2) (d1 : Apart A0 A1) (d2 : Apart A0 A2) (d3 : Apart A1 A2) (d4 : Apart B0 B1) (d5 : Apart B0 B2) (d6 : Apart B1 B2)
    (e1 : Apart A0 B0) (e2 : Apart A0 B1) (e3 : Apart A0 B2) (e4 : Apart A1 B0) (e5 : Apart A1 B1) (e6 : Apart A1 B2)
    (e7 : Apart A2 B0) (e8 : Apart A2 B1) (e9 : Apart A2 B2)
    (t1 : B.Touch A0 B0) (t2 : B.Touch A0 B1) (t3 : B.Touch A0 B2) (t4 : B.Touch A1 B0) (t5 : B.Touch A1 B1) (t6 : B.Touch A1 B2)
    (t7 : B.Touch A2 B0) (t8 : B.Touch A2 B1) (t9 : B.Touch A2 B2) : B.Bad := by
  refine .inr ⟨![A0, A1, A2, B0, B1, B2], ?_, ?_, ?_⟩
  · intro i j a hi hj
    fin_cases i <;> fin_cases j <;> first
      | rfl
      | exact absurd hj (d1 a hi) | exact absurd hj (d2 a hi) | exact absurd hj (d3 a hi)
      | exact absurd hj (d4 a hi) | exact absurd hj (d5 a hi) | exact absurd hj (d6 a hi)
      | exact absurd hj (e1 a hi) | exact absurd hj (e2 a hi) | exact absurd hj (e3 a hi)
      | exact absurd hj (e4 a hi) | exact absurd hj (e5 a hi) | exact absurd hj (e6 a hi)
      | exact absurd hj (e7 a hi) | exact absurd hj (e8 a hi) | exact absurd hj (e9 a hi)
      | exact absurd hi (d1 a hj) | exact absurd hi (d2 a hj) | exact absurd hi (d3 a hj)
      | exact absurd hi (d4 a hj) | exact absurd hi (d5 a hj) | exact absurd hi (d6 a hj)
      | exact absurd hi (e1 a hj) | exact absurd hi (e2 a hj) | exact absurd hi (e3 a hj)
      | exact absurd hi (e4 a hj) | exact absurd hi (e5 a hj) | exact absurd hi (e6 a hj)
      | exact absurd hi (e7 a hj) | exact absurd hi (e8 a hj) | exact absurd hi (e9 a hj)
  · intro i a b hi hj
    fin_cases i
    · exact a0 a b hi hj
    · exact a1 a b hi hj
    · exact a2 a b hi hj
    · exact b0 a b hi hj
    · exact b1 a b hi hj
    · exact b2 a b hi hj
  · intro i j hij
    fin_cases i <;> fin_cases j <;> first
      | (exfalso; revert hij; unfold adjK33; simp; done)
      | exact t1 | exact t2 | exact t3 | exact t4 | exact t5 | exact t6 | exact t7 | exact t8 | exact t9
      | exact t1.symm | exact t2.symm | exact t3.symm | exact t4.symm | exact t5.symm | exact t6.symm | exact t7.symm
      | exact t8.symm | exact t9.symm

theorem mk5 {A0 A1 A2 A3 A4 : Nat → Prop} (a0 : B.Con A0) (a1 : B.Con A1) (a2 : B.Con A2) (a3 : B.Con A3) (a4 : B.Con A4)
    (d1 : Apart A0 A1) (d2 : Apart A0 A2) (d3 : Apart A0 A3) (d4 : Apart A0 A4) (d5 : Apart A1 A2) (d6 : Apart A1 A3)
    (d7 : Apart A1 A4) (d8 : Apart A2 A3) (d9 : Apart A2 A4) (d10 : Apart A3 A4)
    (t1 : B.Touch A0 A1) (t2 : B.Touch A0 A2) (t3 : B.Touch A0 A3) (t4 : B.Touch A0 A4) (t5 : B.Touch A1 A2) (t6 : B.Touch A1 A3)
    (t7 : B.Touch A1 A4) (t8 : B.Touch A2 A3) (t9 : B.Touch A2 A4) (t10 : B.Touch A3 A4) : B.Bad := by
  refine .inl ⟨![A0, A1, A2, A3, A4], ?_, ?_, ?_⟩
  · intro i j a hi hj
    fin_cases i <;> fin_cases j <;> first
      | rfl
      | exact absurd hj (d1 a hi) | exact absurd hj (d2 a hi) | exact absurd hj (d3 a hi) | exact absurd hj (d4 a hi)
      | exact absurd hj (d5 a hi) | exact absurd hj (d6 a hi) | exact absurd hj (d7 a hi) | exact absurd hj (d8 a hi)
      | exact absurd hj (d9 a hi) | exact absurd hj (d10 a hi)
      | exact absurd hi (d1 a hj) | exact absurd hi (d2 a hj) | exact absurd hi (d3 a hj) | exact absurd hi (d4 a hj)
      | exact absurd hi (d5 a hj) | exact absurd hi (d6 a hj) | exact absurd hi (d7 a hj) | exact absurd hi (d8 a hj)
      | exact absurd hi (d9 a hj) | exact absurd hi (d10 a hj)
  · intro i a b hi hj
    fin_cases i
    · exact a0 a b hi hj
    · exact a1 a b hi hj
    · exact a2 a b hi hj
    · exact a3 a b hi hj
    · exact a4 a b hi hj
  · intro i j hij
    fin_cases i <;> fin_cases j <;> first
      | (exfalso; revert hij; unfold adjK5; simp; done)
      | exact t1 | exact t2 | exact t3 | exact t4 | exact t5 | exact t6 | exact t7 | exact t8 | exact t9 | exact t10
      | exact t1.symm | exact t2.symm | exact t3.symm | exact t4.symm | exact t5.symm | exact t6.symm | exact t7.symm
      | exact t8.symm | exact t9.symm | exact t10.symm

/-- The descendants of `c`. -/
def Base.Sub (B : Base) (c y : Nat) : Prop := (1 ≤ y ∧ y ≤ B.N) ∧ AncEq B.par c y

/-- The descendants of `c0` that are not descendants of `c`. -/
def Base.Rest (B : Base) (c0 c y : Nat) : Prop := B.Sub c0 y ∧ ¬ AncEq B.par c y

/-- The proper ancestors of `v`, or the additional vertex. -/
def Base.Above (B : Base) (v y : Nat) : Prop := if B.ap = true then y = 0 else Anc B.par y v

theorem above_ap {B : Base} (h : B.ap = true) (v : Nat) : B.Above v = (· = 0) := by
  funext y; unfold Base.Above; rw [if_pos h]

theorem above_no {B : Base} (h : B.ap = false) (v y : Nat) : B.Above v y ↔ Anc B.par y v := by
  unfold Base.Above; rw [if_neg (by rw [h]; decide)]

/-- The vertex `p` and what hangs at it in separate components. -/
def Hang (G : Gh B.D) (p q : Nat) : Prop := (1 ≤ q ∧ q ≤ B.N) ∧ (q = p ∨ ∃ c, G.Live B.N c ∧ B.par c = p ∧ AncEq B.par c q)

/-- What hangs at some vertices. -/
def Hangs (G : Gh B.D) (l : List Nat) (q : Nat) : Prop := ∃ p ∈ l, Hang G p q

theorem up_range (B : Base) {y : Nat} (hy : 1 ≤ y ∧ y ≤ B.N) (hp : B.par y ≠ 0) : 1 ≤ B.par y ∧ B.par y ≤ B.N := by
  have := B.par_lt y hy.1 hy.2
  omega

theorem anc_range (B : Base) {x y : Nat} (hy : 1 ≤ y ∧ y ≤ B.N) (h : AncEq B.par x y) : 1 ≤ x ∧ x ≤ B.N := by
  have h1 := B.anc_le h hy.1 hy.2
  have h2 := AncEq.ne_zero h (by omega)
  omega

theorem anc_antisymm (B : Base) {x y : Nat} (hy : 1 ≤ y ∧ y ≤ B.N) (h : AncEq B.par x y) (h' : AncEq B.par y x) : x = y := by
  have h1 := B.anc_le h hy.1 hy.2
  have hx := anc_range B hy h
  have h2 := B.anc_le h' hx.1 hx.2
  omega

theorem tree_way (Pl : Plan B) {a y : Nat} (h : AncEq B.par a y) (hy : 1 ≤ y ∧ y ≤ B.N) {S : Nat → Prop} :
    (∀ z, AncEq B.par a z → AncEq B.par z y → S z) → B.Way S a y := by
  induction h with
  | refl => intro _; exact .refl
  | @up y hp h ih =>
    intro hs
    refine ReflTransGen.tail (ih (up_range B hy hp) fun z h1 h2 => hs z h1 (.up hp h2)) ?_
    exact ⟨Pl.tree ⟨hy.1, hy.2, hp⟩, hs _ h (.up hp (.refl _)), hs _ (.up hp h) (.refl _)⟩

theorem con_sub (Pl : Plan B) (c : Nat) : B.Con (B.Sub c) :=
  con_centre (z := c) fun _ ha => tree_way Pl ha.2 ha.1 fun _ h1 h2 => ⟨anc_range B ha.1 h2, h1⟩

theorem con_rest (Pl : Plan B) (c0 c : Nat) : B.Con (B.Rest c0 c) :=
  con_centre (z := c0) fun _ ha => tree_way Pl ha.1.2 ha.1.1 fun _ h1 h2 => ⟨⟨anc_range B ha.1.1 h2, h1⟩, fun h3 => ha.2 (h3.trans h2)⟩

theorem con_above (Pl : Plan B) {v : Nat} (hv : 1 ≤ v ∧ v ≤ B.N) : B.Con (B.Above v) := by
  cases hap : B.ap
  · refine con_centre (z := B.par v) fun y ha => ?_
    have ha := (above_no hap v y).1 ha
    exact (tree_way Pl ha.2 (up_range B hv ha.1) fun z _ h2 => (above_no hap v z).2 ⟨ha.1, h2⟩).symm
  · rw [above_ap hap]; exact con_one _

theorem con_hang (Pl : Plan B) (G : Gh B.D) {p : Nat} (hp1 : 1 ≤ p) : B.Con (Hang G p) := by
  refine con_centre (z := p) ?_
  rintro a ⟨hr, rfl | ⟨c, h1, h2, h3⟩⟩
  · exact .refl
  · have hp : B.par c ≠ 0 := by omega
    have hcr := anc_range B hr h3
    subst h2
    refine tree_way Pl ((AncEq.up hp (.refl _)).trans h3) hr ?_
    intro z z1 z2
    have hzr := anc_range B hr z2
    refine ⟨hzr, ?_⟩
    rcases AncEq.down z2 h3 with k | k
    · rcases k.cases with rfl | k
      · exact .inr ⟨_, h1, rfl, .refl _⟩
      · exact .inl (anc_antisymm B (up_range B hcr hp) k.2 z1)
    · exact .inr ⟨c, h1, rfl, k⟩

theorem hang_self {p : Nat} (h : 1 ≤ p ∧ p ≤ B.N) : Hang G p p := ⟨h, .inl rfl⟩

theorem con_hangs (Pl : Plan B) (G : Gh B.D) : ∀ (l : List Nat), (∀ p ∈ l, 1 ≤ p ∧ p ≤ B.N) → List.IsChain B.Adj l → B.Con (Hangs G l) := by
  intro l
  induction l with
  | nil => rintro _ _ a b ⟨p, hp, _⟩; cases hp
  | cons x l ih =>
    intro hr hc
    have h1 := ih (fun p hp => hr p (List.mem_cons_of_mem _ hp)) (by cases l with | nil => exact .nil | cons y l => exact (List.isChain_cons_cons.1 hc).2)
    have := con_or (con_hang Pl G (hr x (by simp)).1) h1 (by
      cases l with
      | nil => right; rintro a ⟨p, hp, _⟩; cases hp
      | cons y l =>
        left
        exact ⟨x, y, hang_self (hr x (by simp)), ⟨y, by simp, hang_self (hr y (by simp))⟩, (List.isChain_cons_cons.1 hc).1⟩)
    have e : Hangs G (x :: l) = fun a => Hang G x a ∨ Hangs G l a := by
      funext a
      apply propext
      unfold Hangs
      simp
    rw [e]; exact this

/-- Where the walk down of the component of `c0` meets a component below: `F` has the vertices around the component of `c`. -/
structure Site (Pl : Plan B) (G : Gh B.D) (v c0 c : Nat) (F : List Nat) : Prop where
  good : Good B.N B.par B.α G
  live : G.Live B.N c
  par0 : B.par c0 = v
  child0 : B.Child c0
  below : AncEq B.par c0 c
  ne : c ≠ c0
  nodup : F.Nodup
  mem : ∀ p ∈ F, 1 ≤ p ∧ p ≤ B.N ∧ G.cp p = c
  ring : List.IsChain B.Adj (B.par c :: F ++ [B.par c])

/-- An edge from `v` into a set. -/
def ToV (Pl : Plan B) (v : Nat) (S : Nat → Prop) : Prop := ∃ f ∈ Pl.fw0 v, S (Pl.nb f)

/-- An edge from before `v`, or from the additional vertex, into a set. -/
def ToU (Pl : Plan B) (v : Nat) (S : Nat → Prop) : Prop :=
  (∃ u, u < v ∧ ∃ f ∈ Pl.fw0 u, S (Pl.nb f)) ∨ (B.ap = true ∧ ∃ x, (1 ≤ x ∧ x ≤ B.N) ∧ S x)

theorem ToV.mono {S S' : Nat → Prop} (h : ToV Pl v S) (hs : ∀ x, S x → S' x) : ToV Pl v S' := by
  obtain ⟨f, h1, h2⟩ := h; exact ⟨f, h1, hs _ h2⟩

theorem ToU.mono {S S' : Nat → Prop} (h : ToU Pl v S) (hs : ∀ x, S x → S' x) : ToU Pl v S' := by
  rcases h with ⟨u, h0, f, h1, h2⟩ | ⟨h0, x, h1, h2⟩
  · exact .inl ⟨u, h0, f, h1, hs _ h2⟩
  · exact .inr ⟨h0, x, h1, hs _ h2⟩

theorem ToU.ne {S : Nat → Prop} (h : ToU Pl v S) : ∃ x, S x := by
  rcases h with ⟨u, h0, f, h1, h2⟩ | ⟨h0, x, h1, h2⟩
  · exact ⟨_, h2⟩
  · exact ⟨_, h2⟩

theorem ToU.hangs_ne {l : List Nat} (h : ToU Pl v (Hangs G l)) : l ≠ [] := by
  rintro rfl
  obtain ⟨x, _, hh, _⟩ := h.ne
  cases hh

theorem ToV.touch {S : Nat → Prop} (h : ToV Pl v S) : B.Touch (· = v) S := by
  obtain ⟨f, h1, h2⟩ := h; exact ⟨v, _, rfl, h2, Pl.arc h1⟩

theorem ToU.touch (hc0 : B.Child c0) {S : Nat → Prop} (hS : ∀ x, S x → B.Sub c0 x) (h : ToU Pl (B.par c0) S) :
    B.Touch (B.Above (B.par c0)) S := by
  cases hap : B.ap
  case true =>
    rw [above_ap hap]
    obtain ⟨x, hx⟩ := h.ne
    exact ⟨0, x, rfl, hx, .inr ⟨hap, .inl ⟨rfl, (hS x hx).1⟩⟩⟩
  obtain ⟨u, hu, f, h1, h2⟩ := h.resolve_right fun k => by rw [hap] at k; exact absurd k.1 (by decide)
  refine ⟨u, _, (above_no hap _ _).2 ?_, h2, Pl.arc h1⟩
  have hx := hS _ h2
  have h3 := (Pl.fw_anc u f h1).eq
  have h4 := B.anc_of_le h3 ((AncEq.up hc0.2.2 (.refl _)).trans hx.2) hx.1 (by omega)
  rcases h4.cases with h5 | h5
  · omega
  · exact h5

theorem ToU.above (hc0 : B.Child c0) {S : Nat → Prop} (hS : ∀ x, S x → B.Sub c0 x) (h : ToU Pl (B.par c0) S) :
    B.ap = false → B.par (B.par c0) ≠ 0 := by
  intro hap
  obtain ⟨u, _, h1, _⟩ := h.touch hc0 hS
  exact ((above_no hap _ _).1 h1).1

section
variable (hc0 : B.Child c0)
include hc0

theorem par_range : 1 ≤ B.par c0 ∧ B.par c0 ≤ B.N := up_range B ⟨hc0.1, hc0.2.1⟩ hc0.2.2

theorem apart_v_sub : Apart (· = B.par c0) (B.Sub c0) := by
  rintro a rfl h
  have := B.anc_le h.2 h.1.1 h.1.2
  have := B.par_lt c0 hc0.1 hc0.2.1
  omega

theorem apart_above_sub : Apart (B.Above (B.par c0)) (B.Sub c0) := by
  intro a h1 h2
  have hr := par_range hc0
  cases hap : B.ap
  case true =>
    rw [above_ap hap] at h1
    have := h2.1.1
    omega
  have h1 := (above_no hap _ _).1 h1
  have k1 := B.anc_le h1.eq hr.1 hr.2
  have := B.anc_le h2.2 h2.1.1 h2.1.2
  have := B.par_lt c0 hc0.1 hc0.2.1
  omega

theorem apart_v_above : Apart (· = B.par c0) (B.Above (B.par c0)) := by
  rintro a rfl h
  have hr := par_range hc0
  cases hap : B.ap
  case true =>
    rw [above_ap hap] at h
    omega
  have h := (above_no hap _ _).1 h
  have h2 := up_range B hr h.1
  have := B.anc_le h.2 h2.1 h2.2
  have := B.par_lt (B.par c0) hr.1 hr.2
  omega

theorem touch_v_above (Pl : Plan B) (h : B.ap = false → B.par (B.par c0) ≠ 0) : B.Touch (· = B.par c0) (B.Above (B.par c0)) := by
  cases hap : B.ap
  · exact ⟨_, _, rfl, (above_no hap _ _).2 ⟨h hap, .refl _⟩, (Pl.tree ⟨(par_range hc0).1, (par_range hc0).2, h hap⟩).symm⟩
  · rw [above_ap hap]
    exact ⟨_, 0, rfl, rfl, .inr ⟨hap, .inr ⟨rfl, par_range hc0⟩⟩⟩

end

namespace Site
variable (h : Site Pl G v c0 c F)
include h

theorem rest0 : B.Rest c0 c c0 := by
  refine ⟨⟨⟨h.child0.1, h.child0.2.1⟩, .refl _⟩, fun hh => h.ne ?_⟩
  exact anc_antisymm B ⟨h.child0.1, h.child0.2.1⟩ hh h.below

theorem crange : 1 ≤ c ∧ c ≤ B.N ∧ B.par c ≠ 0 := ⟨h.live.1, (h.good.root c h.live).1, (h.good.root c h.live).2.1⟩

theorem restp : B.Rest c0 c (B.par c) := by
  have hc := h.crange
  refine ⟨⟨up_range B ⟨hc.1, hc.2.1⟩ hc.2.2, ?_⟩, fun hh => ?_⟩
  · rcases h.below.cases with k | k
    · exact absurd k.symm h.ne
    · exact k.2
  · have hr := up_range B ⟨hc.1, hc.2.1⟩ hc.2.2
    have := B.anc_le hh hr.1 hr.2
    have := B.par_lt c hc.1 hc.2.1
    omega

theorem hang_sub {p q : Nat} (hp : p ∈ F) (hq : Hang G p q) : B.Sub c q := by
  obtain ⟨m1, m2, m3⟩ := h.mem p hp
  have ha := h.good.anc B.par_lt p m1 m2
  rw [m3] at ha
  obtain ⟨hr, rfl | ⟨e, h1, h2, h3⟩⟩ := hq
  · exact ⟨hr, ha⟩
  · refine ⟨hr, ha.trans ?_⟩
    have hp0 : B.par e ≠ 0 := by omega
    rw [← h2]
    exact (AncEq.up hp0 (.refl _)).trans h3

theorem hangs_sub {l : List Nat} (hl : ∀ p ∈ l, p ∈ F) {q : Nat} (hq : Hangs G l q) : B.Sub c q := by
  obtain ⟨p, hp, hq⟩ := hq
  exact h.hang_sub (hl p hp) hq

theorem sub0 {q : Nat} (hq : B.Sub c q) : B.Sub c0 q := ⟨hq.1, h.below.trans hq.2⟩

theorem hang_inj {p p' q : Nat} (hp : p ∈ F) (hp' : p' ∈ F) (hq : Hang G p q) (hq' : Hang G p' q) : p = p' := by
  obtain ⟨m1, m2, m3⟩ := h.mem p hp
  obtain ⟨n1, n2, n3⟩ := h.mem p' hp'
  have ha := h.good.anc B.par_lt p m1 m2
  have ha' := h.good.anc B.par_lt p' n1 n2
  rw [m3] at ha; rw [n3] at ha'
  -- a component hanging at a vertex has no vertex of the ring
  have key : ∀ x e y, 1 ≤ x ∧ x ≤ B.N → AncEq B.par c x → G.Live B.N e → B.par e = x → (1 ≤ y ∧ y ≤ B.N) → G.cp y = c → ¬ AncEq B.par e y := by
    intro x e y hx hcx he hex hy hcy hey
    have k := live_anc h.good he hey hy.1 hy.2
    rw [hcy] at k
    have k := k.trans hcx
    have h1 := B.anc_le k hx.1 hx.2
    have he' := anc_range B hx k
    have := B.par_lt e he'.1 he'.2
    omega
  obtain ⟨hr, rfl | ⟨e, h1, h2, h3⟩⟩ := hq
  · obtain ⟨_, e | ⟨e', k1, k2, k3⟩⟩ := hq'
    · exact e
    · exact absurd k3 (key _ _ _ ⟨n1, n2⟩ ha' k1 k2 ⟨m1, m2⟩ m3)
  · obtain ⟨_, rfl | ⟨e', k1, k2, k3⟩⟩ := hq'
    · exact absurd h3 (key _ _ _ ⟨m1, m2⟩ ha h1 h2 ⟨n1, n2⟩ n3)
    · rcases AncEq.down h3 k3 with k | k
      · rcases k.cases with rfl | k
        · rw [← h2, k2]
        · have := k.2
          rw [k2] at this
          exact absurd this (key _ _ _ ⟨m1, m2⟩ ha h1 h2 ⟨n1, n2⟩ n3)
      · rcases k.cases with rfl | k
        · rw [← h2, k2]
        · have := k.2
          rw [h2] at this
          exact absurd this (key _ _ _ ⟨n1, n2⟩ ha' k1 k2 ⟨m1, m2⟩ m3)

theorem apart_hangs {l l' : List Nat} (hl : ∀ p ∈ l, p ∈ F) (hl' : ∀ p ∈ l', p ∈ F) (hd : ∀ p ∈ l, p ∉ l') : Apart (Hangs G l) (Hangs G l') := by
  rintro a ⟨p, hp, k⟩ ⟨p', hp', k'⟩
  have := h.hang_inj (hl p hp) (hl' p' hp') k k'
  exact hd p hp (this ▸ hp')

theorem apart_rest {l : List Nat} (hl : ∀ p ∈ l, p ∈ F) : Apart (Hangs G l) (B.Rest c0 c) := fun _ h1 h2 => h2.2 (h.hangs_sub hl h1).2

theorem range {l : List Nat} (hl : ∀ p ∈ l, p ∈ F) : ∀ p ∈ l, 1 ≤ p ∧ p ≤ B.N := fun p hp => ⟨(h.mem p (hl p hp)).1, (h.mem p (hl p hp)).2.1⟩

theorem con_seg {l l' l'' : List Nat} (hF : F = l ++ l' ++ l'') : B.Con (Hangs G l') := by
  refine con_hangs Pl G l' (h.range (by rw [hF]; simp +contextual)) ?_
  have := h.ring
  rw [hF] at this
  exact this.infix ⟨B.par c :: l, l'' ++ [B.par c], by simp⟩

/-- Parts of the ring next to each other. -/
theorem touch_seg {l l' : List Nat} {A C : List Nat} (hF : F = A ++ l ++ (l' ++ C)) (hl : l ≠ []) (hl' : l' ≠ []) :
    B.Touch (Hangs G l) (Hangs G l') := by
  obtain ⟨x, l1, rfl⟩ := List.exists_cons_of_ne_nil hl'
  obtain ⟨l2, y, rfl⟩ : ∃ l2 y, l = l2 ++ [y] := ⟨l.dropLast, l.getLast hl, (List.dropLast_append_getLast hl).symm⟩
  have hx : x ∈ F := by rw [hF]; simp
  have hy : y ∈ F := by rw [hF]; simp
  have ry := h.range (l := F) (fun _ k => k)
  refine ⟨y, x, ⟨y, by simp, hang_self (ry y hy)⟩, ⟨x, by simp, hang_self (ry x hx)⟩, ?_⟩
  have := h.ring
  rw [hF] at this
  have := this.infix (l₁ := [y, x]) ⟨B.par c :: (A ++ l2), l1 ++ C ++ [B.par c], by simp⟩
  simpa using this

theorem touch_first {l l' : List Nat} (hF : F = l ++ l') (hl : l ≠ []) : B.Touch (B.Rest c0 c) (Hangs G l) := by
  obtain ⟨x, l1, rfl⟩ := List.exists_cons_of_ne_nil hl
  have ry := h.range (l := F) (fun _ k => k)
  refine ⟨_, x, h.restp, ⟨x, by simp, hang_self (ry x (by rw [hF]; simp))⟩, ?_⟩
  have := h.ring
  rw [hF] at this
  simp only [List.cons_append] at this
  exact (List.isChain_cons_cons.1 this).1

theorem touch_last {l l' : List Nat} (hF : F = l' ++ l) (hl : l ≠ []) : B.Touch (B.Rest c0 c) (Hangs G l) := by
  obtain ⟨l2, y, rfl⟩ : ∃ l2 y, l = l2 ++ [y] := ⟨l.dropLast, l.getLast hl, (List.dropLast_append_getLast hl).symm⟩
  have ry := h.range (l := F) (fun _ k => k)
  refine ⟨_, y, h.restp, ⟨y, by simp, hang_self (ry y (by rw [hF]; simp))⟩, ?_⟩
  have := h.ring
  rw [hF] at this
  have := this.infix (l₁ := [y, B.par c]) ⟨B.par c :: (l' ++ l2), [], by simp⟩
  exact (show B.Adj y (B.par c) by simpa using this).symm

theorem touch_rest : B.Touch (· = B.par c0) (B.Rest c0 c) := ⟨_, _, rfl, h.rest0, Pl.tree h.child0⟩

theorem ring_rev : Site Pl G v c0 c F.reverse := by
  refine ⟨h.good, h.live, h.par0, h.child0, h.below, h.ne, List.nodup_reverse.2 h.nodup, fun p hp => h.mem p (List.mem_reverse.1 hp), ?_⟩
  have := h.ring
  have e : B.par c :: F.reverse ++ [B.par c] = (B.par c :: F ++ [B.par c]).reverse := by simp
  rw [e, List.isChain_reverse]
  exact this.imp fun _ _ k => k.symm

theorem hangs0 {l : List Nat} (hl : ∀ p ∈ l, p ∈ F) {q : Nat} (hq : Hangs G l q) : B.Sub c0 q := h.sub0 (h.hangs_sub hl hq)

/-- A vertex with an edge to `v`, both ways from it to the parent a vertex with an edge to before `v`. -/
theorem obs1 {I I' : List Nat} {w : Nat} (hF : F = I ++ w :: I') (h1 : ToU Pl v (Hangs G I)) (h2 : ToV Pl v (Hang G w))
    (h3 : ToU Pl v (Hangs G I')) : B.Bad := by
  have hn := h.nodup
  have hI : ∀ p ∈ I, p ∈ F := by rw [hF]; simp +contextual
  have hI' : ∀ p ∈ I', p ∈ F := by rw [hF]; simp +contextual
  have hw : ∀ p ∈ [w], p ∈ F := by rw [hF]; simp
  have e : Hang G w = Hangs G [w] := by funext a; simp [Hangs]
  rw [e] at h2
  have n1 : I ≠ [] := h1.hangs_ne
  have n2 : I' ≠ [] := h3.hangs_ne
  have hv := h.par0
  subst hv
  have hup := h1.above h.child0 fun _ => h.hangs0 hI
  rw [hF] at hn
  obtain ⟨m1, m2, m3⟩ := List.nodup_append.1 hn
  have m4 := (List.nodup_cons.1 m2).1
  have aU : ∀ l : List Nat, (∀ p ∈ l, p ∈ F) → Apart (Hangs G l) (B.Above (B.par c0)) := fun l hl =>
    ((apart_above_sub h.child0).mono (fun _ k => k) fun _ => h.hangs0 hl).symm
  have aV : ∀ l : List Nat, (∀ p ∈ l, p ∈ F) → Apart (Hangs G l) (· = B.par c0) := fun l hl =>
    ((apart_v_sub h.child0).mono (fun _ k => k) fun _ => h.hangs0 hl).symm
  refine mk33 (A0 := Hangs G I) (A1 := Hangs G I') (A2 := (· = B.par c0)) (B0 := B.Rest c0 c) (B1 := Hangs G [w]) (B2 := B.Above (B.par c0))
    (h.con_seg (l := []) (l'' := w :: I') (by rw [hF]; simp)) (h.con_seg (l := I ++ [w]) (l'' := []) (by rw [hF]; simp)) (con_one _) (con_rest Pl _ _)
    (h.con_seg (l := I) (l'' := I') (by rw [hF]; simp)) (con_above Pl (par_range h.child0))
    (h.apart_hangs hI hI' fun p k k' => m3 p k p (List.mem_cons_of_mem _ k') rfl) (aV I hI) (aV I' hI')
    (h.apart_rest hw).symm ((apart_above_sub h.child0).symm.mono (fun _ k => k.1) fun _ k => k) (aU _ hw)
    (h.apart_rest hI) (h.apart_hangs hI hw fun p k k' => m3 p k p (by simp at k'; simp [k']) rfl) (aU _ hI)
    (h.apart_rest hI') (h.apart_hangs hI' hw fun p k k' => m4 (by simp at k'; exact k' ▸ k)) (aU _ hI')
    ((apart_v_sub h.child0).mono (fun _ k => k) fun _ k => k.1) (aV _ hw).symm (apart_v_above h.child0)
    (h.touch_first (l' := w :: I') hF n1).symm (h.touch_seg (A := []) (C := I') (by rw [hF]; simp) n1 (by simp)) (h1.touch h.child0 fun _ => h.hangs0 hI).symm
    (h.touch_last (l' := I ++ [w]) (by rw [hF]; simp) n2).symm (h.touch_seg (A := I) (C := []) (by rw [hF]; simp) (by simp) n2).symm (h3.touch h.child0 fun _ => h.hangs0 hI').symm
    h.touch_rest h2.touch (touch_v_above h.child0 Pl hup)

/-- A vertex with an edge to before `v` between two with edges to `v`, and such an edge away from the ring. -/
theorem obs2 {I A' C' : List Nat} (hF : F = I ++ A' ++ C') (h1 : ToV Pl v (Hangs G I)) (h2 : ToU Pl v (Hangs G A'))
    (h3 : ToV Pl v (Hangs G C')) (h4 : ToU Pl v (B.Rest c0 c)) : B.Bad := by
  have hn := h.nodup
  have hI : ∀ p ∈ I, p ∈ F := by rw [hF]; simp +contextual
  have hA : ∀ p ∈ A', p ∈ F := by rw [hF]; simp +contextual
  have hC : ∀ p ∈ C', p ∈ F := by rw [hF]; simp +contextual
  have n1 : I ≠ [] := by rintro rfl; obtain ⟨_, _, _, hh, _⟩ := h1; cases hh
  have n2 : A' ≠ [] := h2.hangs_ne
  have n3 : C' ≠ [] := by rintro rfl; obtain ⟨_, _, _, hh, _⟩ := h3; cases hh
  have hv := h.par0
  subst hv
  have hup := h2.above h.child0 fun _ => h.hangs0 hA
  rw [hF] at hn
  obtain ⟨m1, m2, m3⟩ := List.nodup_append.1 hn
  obtain ⟨m4, m5, m6⟩ := List.nodup_append.1 m1
  have aU : ∀ l : List Nat, (∀ p ∈ l, p ∈ F) → Apart (Hangs G l) (B.Above (B.par c0)) := fun l hl =>
    ((apart_above_sub h.child0).mono (fun _ k => k) fun _ => h.hangs0 hl).symm
  have aV : ∀ l : List Nat, (∀ p ∈ l, p ∈ F) → Apart (· = B.par c0) (Hangs G l) := fun l hl =>
    (apart_v_sub h.child0).mono (fun _ k => k) fun _ => h.hangs0 hl
  refine mk33 (A0 := B.Rest c0 c) (A1 := Hangs G A') (A2 := (· = B.par c0)) (B0 := Hangs G I) (B1 := Hangs G C') (B2 := B.Above (B.par c0))
    (con_rest Pl _ _) (h.con_seg (l := I) (l'' := C') hF) (con_one _) (h.con_seg (l := []) (l'' := A' ++ C') (by rw [hF]; simp))
    (h.con_seg (l := I ++ A') (l'' := []) (by rw [hF]; simp)) (con_above Pl (par_range h.child0))
    (h.apart_rest hA).symm ((apart_v_sub h.child0).mono (fun _ k => k) fun _ k => k.1).symm (aV _ hA).symm
    (h.apart_hangs hI hC fun p k k' => m3 p (by simp [k]) p k' rfl) (aU _ hI) (aU _ hC)
    (h.apart_rest hI).symm (h.apart_rest hC).symm ((apart_above_sub h.child0).symm.mono (fun _ k => k.1) fun _ k => k)
    (h.apart_hangs hA hI fun p k k' => m6 p k' p k rfl) (h.apart_hangs hA hC fun p k k' => m3 p (by simp [k]) p k' rfl) (aU _ hA)
    (aV _ hI) (aV _ hC) (apart_v_above h.child0)
    (h.touch_first (l' := A' ++ C') (by rw [hF]; simp) n1) (h.touch_last (l' := I ++ A') hF n3) (h4.touch h.child0 fun _ k => k.1).symm
    (h.touch_seg (A := []) (C := C') (by rw [hF]; simp) n1 n2).symm (h.touch_seg (A := I) (C := []) (by rw [hF]; simp) n2 n3) (h2.touch h.child0 fun _ => h.hangs0 hA).symm
    h1.touch h3.touch (touch_v_above h.child0 Pl hup)

/-- Both parts of the ring with edges to `v` and to before `v`, and such an edge away from the ring. -/
theorem obs3 {I I' : List Nat} (hF : F = I ++ I') (h1 : ToV Pl v (Hangs G I)) (h2 : ToU Pl v (Hangs G I)) (h3 : ToV Pl v (Hangs G I'))
    (h4 : ToU Pl v (Hangs G I')) (h5 : ToU Pl v (B.Rest c0 c)) : B.Bad := by
  have hn := h.nodup
  have hI : ∀ p ∈ I, p ∈ F := by rw [hF]; simp +contextual
  have hI' : ∀ p ∈ I', p ∈ F := by rw [hF]; simp +contextual
  have n1 : I ≠ [] := by rintro rfl; obtain ⟨_, _, _, hh, _⟩ := h1; cases hh
  have n2 : I' ≠ [] := by rintro rfl; obtain ⟨_, _, _, hh, _⟩ := h3; cases hh
  have hv := h.par0
  subst hv
  have hup := h2.above h.child0 fun _ => h.hangs0 hI
  rw [hF] at hn
  obtain ⟨m1, m2, m3⟩ := List.nodup_append.1 hn
  have aU : ∀ l : List Nat, (∀ p ∈ l, p ∈ F) → Apart (Hangs G l) (B.Above (B.par c0)) := fun l hl =>
    ((apart_above_sub h.child0).mono (fun _ k => k) fun _ => h.hangs0 hl).symm
  have aV : ∀ l : List Nat, (∀ p ∈ l, p ∈ F) → Apart (Hangs G l) (· = B.par c0) := fun l hl =>
    ((apart_v_sub h.child0).mono (fun _ k => k) fun _ => h.hangs0 hl).symm
  refine mk5 (A0 := B.Rest c0 c) (A1 := Hangs G I) (A2 := Hangs G I') (A3 := (· = B.par c0)) (A4 := B.Above (B.par c0))
    (con_rest Pl _ _) (h.con_seg (l := []) (l'' := I') (by rw [hF]; simp)) (h.con_seg (l := I) (l'' := []) (by rw [hF]; simp)) (con_one _)
    (con_above Pl (par_range h.child0))
    (h.apart_rest hI).symm (h.apart_rest hI').symm ((apart_v_sub h.child0).mono (fun _ k => k) fun _ k => k.1).symm
    ((apart_above_sub h.child0).symm.mono (fun _ k => k.1) fun _ k => k)
    (h.apart_hangs hI hI' fun p k k' => m3 p k p k' rfl) (aV _ hI) (aU _ hI) (aV _ hI') (aU _ hI') (apart_v_above h.child0)
    (h.touch_first hF n1) (h.touch_last hF n2) h.touch_rest.symm (h5.touch h.child0 fun _ k => k.1).symm
    (h.touch_seg (A := []) (C := []) (by rw [hF]; simp) n1 n2) h1.touch.symm (h2.touch h.child0 fun _ => h.hangs0 hI).symm
    h3.touch.symm (h4.touch h.child0 fun _ => h.hangs0 hI').symm (touch_v_above h.child0 Pl hup)

omit h in
theorem sibs {e e' w : Nat} (he : B.par e = w) (he' : B.par e' = w) (hw : w ≠ 0) (hne : e ≠ e') : Apart (B.Sub e) (B.Sub e') := by
  have key : ∀ e e', B.par e = w → B.par e' = w → (1 ≤ e' ∧ e' ≤ B.N) → AncEq B.par e e' → e = e' := by
    intro e e' he he' hr' k
    rcases k.cases with k | k
    · exact k
    · exfalso
      have k2 := k.2
      rw [he', ← he] at k2
      have h0 := k.1
      rw [he', ← he] at h0
      have hw := up_range B hr' k.1
      rw [he', ← he] at hw
      have hre := anc_range B hw k2
      have := B.anc_le k2 hw.1 hw.2
      have := B.par_lt e hre.1 hre.2
      omega
  intro a k k'
  rcases AncEq.down k.2 k'.2 with q | q
  · exact hne (key e e' he he' (anc_range B k'.1 k'.2) q)
  · exact hne (key e' e he' he (anc_range B k.1 k.2) q).symm

omit h in
theorem own_sub {e w : Nat} (he : B.par e = w) (hw : 1 ≤ w) : Apart (· = w) (B.Sub e) := by
  rintro a rfl k
  have hr := anc_range B k.1 k.2
  have := B.anc_le k.2 k.1.1 k.1.2
  have := B.par_lt e hr.1 hr.2
  omega

/-- Two components at a vertex of the ring with edges to `v` and to before `v`, and one to before `v` from elsewhere. -/
theorem obs4 {I I' : List Nat} {w e e' : Nat} (hF : F = I ++ w :: I') (he : G.Live B.N e) (he' : G.Live B.N e') (hne : e ≠ e')
    (hp : B.par e = w) (hp' : B.par e' = w) (h1 : ToV Pl v (B.Sub e)) (h2 : ToU Pl v (B.Sub e)) (h3 : ToV Pl v (B.Sub e'))
    (h4 : ToU Pl v (B.Sub e')) (h5 : ToU Pl v fun x => (B.Rest c0 c x ∨ Hangs G I x) ∨ Hangs G I' x) : B.Bad := by
  have hn := h.nodup
  have hI : ∀ p ∈ I, p ∈ F := by rw [hF]; simp +contextual
  have hI' : ∀ p ∈ I', p ∈ F := by rw [hF]; simp +contextual
  have hw : w ∈ F := by rw [hF]; simp
  have hwr := h.range (l := F) (fun _ k => k) w hw
  have hcw : AncEq B.par c w := by
    have := h.good.anc B.par_lt w hwr.1 hwr.2
    rwa [(h.mem w hw).2.2] at this
  have hE : ∀ {e}, B.par e = w → ∀ x, B.Sub e x → B.Sub c x := fun {e} hp x k =>
    ⟨k.1, hcw.trans ((hp ▸ AncEq.up (by omega) (.refl _) : AncEq B.par w e).trans k.2)⟩
  have hE0 : ∀ {e}, B.par e = w → ∀ x, B.Sub e x → B.Sub c0 x := fun {e} hp x k => h.sub0 (hE hp x k)
  have hEH : ∀ {e}, G.Live B.N e → B.par e = w → ∀ x, B.Sub e x → Hangs G [w] x := fun {e} he hp x k =>
    ⟨w, by simp, k.1, .inr ⟨e, he, hp, k.2⟩⟩
  have hv := h.par0
  subst hv
  have hup := h2.above h.child0 (hE0 hp)
  rw [hF] at hn
  obtain ⟨m1, m2, m3⟩ := List.nodup_append.1 hn
  have m4 := (List.nodup_cons.1 m2).1
  have hR0 : ∀ x, ((B.Rest c0 c x ∨ Hangs G I x) ∨ Hangs G I' x) → B.Sub c0 x := by
    rintro x ((k | k) | k)
    · exact k.1
    · exact h.hangs0 hI k
    · exact h.hangs0 hI' k
  have aR : ∀ {e}, G.Live B.N e → B.par e = w → Apart (B.Sub e) fun x => (B.Rest c0 c x ∨ Hangs G I x) ∨ Hangs G I' x := by
    rintro e he hp x k ((k' | k') | k')
    · exact k'.2 (hE hp x k).2
    · exact h.apart_hangs hI (l' := [w]) (by simpa using hw) (fun p q q' => m3 p q p (by simp at q'; simp [q']) rfl) x k' (hEH he hp x k)
    · exact h.apart_hangs hI' (l' := [w]) (by simpa using hw) (fun p q q' => m4 (by simp at q'; exact q' ▸ q)) x k' (hEH he hp x k)
  have awR : Apart (· = w) fun x => (B.Rest c0 c x ∨ Hangs G I x) ∨ Hangs G I' x := by
    rintro x rfl ((k' | k') | k')
    · exact k'.2 hcw
    · exact h.apart_hangs hI (l' := [x]) (by simpa using hw) (fun p q q' => m3 p q p (by simp at q'; simp [q']) rfl) x k' ⟨x, by simp, hang_self hwr⟩
    · exact h.apart_hangs hI' (l' := [x]) (by simpa using hw) (fun p q q' => m4 (by simp at q'; exact q' ▸ q)) x k' ⟨x, by simp, hang_self hwr⟩
  have cR : B.Con fun x => (B.Rest c0 c x ∨ Hangs G I x) ∨ Hangs G I' x := by
    refine con_or (con_or (con_rest Pl _ _) (h.con_seg (l := []) (l'' := w :: I') (by rw [hF]; simp)) ?_)
      (h.con_seg (l := I ++ [w]) (l'' := []) (by rw [hF]; simp)) ?_
    · by_cases hn1 : I = []
      · right; rintro x ⟨p, k, _⟩; rw [hn1] at k; cases k
      · exact .inl (h.touch_first hF hn1)
    · by_cases hn1 : I' = []
      · right; rintro x ⟨p, k, _⟩; rw [hn1] at k; cases k
      · exact .inl ((h.touch_last (l' := I ++ [w]) (by rw [hF]; simp) hn1).mono (fun _ => .inl) fun _ k => k)
  have twR : B.Touch (· = w) fun x => (B.Rest c0 c x ∨ Hangs G I x) ∨ Hangs G I' x := by
    have hr := h.ring
    rw [hF] at hr
    by_cases hn1 : I = []
    · subst hn1
      exact ⟨w, B.par c, rfl, .inl (.inl h.restp), ((List.isChain_cons_cons.1 hr).1).symm⟩
    · obtain ⟨l2, y, rfl⟩ : ∃ l2 y, I = l2 ++ [y] := ⟨I.dropLast, I.getLast hn1, (List.dropLast_append_getLast hn1).symm⟩
      have := hr.infix (l₁ := [y, w]) ⟨B.par c :: l2, I' ++ [B.par c], by simp⟩
      exact ⟨w, y, rfl, .inl (.inr ⟨y, by simp, hang_self (h.range hI y (by simp))⟩), (show B.Adj y w by simpa using this).symm⟩
  have tw : ∀ {e}, G.Live B.N e → B.par e = w → B.Touch (· = w) (B.Sub e) := fun {e} he hp =>
    ⟨w, e, rfl, ⟨⟨he.1, (h.good.root e he).1⟩, .refl _⟩, hp ▸ Pl.tree ⟨he.1, (h.good.root e he).1, by omega⟩⟩
  have hw0 : B.Sub c0 w := h.sub0 ⟨hwr, hcw⟩
  exact mk33 (A0 := (· = B.par c0)) (A1 := (· = w)) (A2 := B.Above (B.par c0)) (B0 := B.Sub e) (B1 := B.Sub e')
    (B2 := fun x => (B.Rest c0 c x ∨ Hangs G I x) ∨ Hangs G I' x)
    (con_one _) (con_one _) (con_above Pl (par_range h.child0)) (con_sub Pl e) (con_sub Pl e') cR
    ((apart_v_sub h.child0).mono (fun _ k => k) (by rintro _ rfl; exact hw0)) (apart_v_above h.child0)
    ((apart_above_sub h.child0).symm.mono (by rintro _ rfl; exact hw0) fun _ k => k)
    (sibs hp hp' (by omega) hne) (aR he hp) (aR he' hp')
    ((apart_v_sub h.child0).mono (fun _ k => k) (hE0 hp)) ((apart_v_sub h.child0).mono (fun _ k => k) (hE0 hp')) ((apart_v_sub h.child0).mono (fun _ k => k) hR0)
    (own_sub hp hwr.1) (own_sub hp' hwr.1) awR
    ((apart_above_sub h.child0).mono (fun _ k => k) (hE0 hp)) ((apart_above_sub h.child0).mono (fun _ k => k) (hE0 hp'))
    ((apart_above_sub h.child0).mono (fun _ k => k) hR0)
    h1.touch h3.touch (h.touch_rest.mono (fun _ k => k) fun _ k => .inl (.inl k))
    (tw he hp) (tw he' hp') twR
    (h2.touch h.child0 (hE0 hp)) (h4.touch h.child0 (hE0 hp')) (h5.touch h.child0 hR0)

end Site

/-- Three components at a vertex below `v`, each with edges to `v` and to before `v`. -/
theorem obs5 (hg : Good B.N B.par B.α G) (hc0 : B.Child c0) (hv : B.par c0 = v) {w e1 e2 e3 : Nat} (hw : B.Sub c0 w)
    (h1 : G.Live B.N e1) (h2 : G.Live B.N e2) (h3 : G.Live B.N e3) (p1 : B.par e1 = w) (p2 : B.par e2 = w) (p3 : B.par e3 = w)
    (n1 : e1 ≠ e2) (n2 : e1 ≠ e3) (n3 : e2 ≠ e3) (v1 : ToV Pl v (B.Sub e1)) (v2 : ToV Pl v (B.Sub e2)) (v3 : ToV Pl v (B.Sub e3))
    (u1 : ToU Pl v (B.Sub e1)) (u2 : ToU Pl v (B.Sub e2)) (u3 : ToU Pl v (B.Sub e3)) : B.Bad := by
  subst hv
  have hwr := hw.1
  have hE0 : ∀ {e}, B.par e = w → ∀ x, B.Sub e x → B.Sub c0 x := fun {e} hp x k =>
    ⟨k.1, hw.2.trans ((hp ▸ AncEq.up (by omega) (.refl _) : AncEq B.par w e).trans k.2)⟩
  have hup := u1.above hc0 (hE0 p1)
  have tw : ∀ {e}, G.Live B.N e → B.par e = w → B.Touch (B.Sub e) (· = w) := fun {e} he hp =>
    ⟨e, w, ⟨⟨he.1, (hg.root e he).1⟩, .refl _⟩, rfl, (hp ▸ Pl.tree ⟨he.1, (hg.root e he).1, by omega⟩ : B.Adj w e).symm⟩
  have aV : ∀ {e}, B.par e = w → Apart (B.Sub e) (· = B.par c0) := fun hp => ((apart_v_sub hc0).mono (fun _ k => k) (hE0 hp)).symm
  have aU : ∀ {e}, B.par e = w → Apart (B.Sub e) (B.Above (B.par c0)) := fun hp => ((apart_above_sub hc0).mono (fun _ k => k) (hE0 hp)).symm
  exact mk33 (A0 := B.Sub e1) (A1 := B.Sub e2) (A2 := B.Sub e3) (B0 := (· = w)) (B1 := (· = B.par c0)) (B2 := B.Above (B.par c0))
    (con_sub Pl _) (con_sub Pl _) (con_sub Pl _) (con_one _) (con_one _) (con_above Pl (par_range hc0))
    (Site.sibs p1 p2 (by omega) n1) (Site.sibs p1 p3 (by omega) n2) (Site.sibs p2 p3 (by omega) n3)
    ((apart_v_sub hc0).symm.mono (by rintro _ rfl; exact hw) fun _ k => k) ((apart_above_sub hc0).symm.mono (by rintro _ rfl; exact hw) fun _ k => k)
    (apart_v_above hc0)
    (Site.own_sub p1 hwr.1).symm (aV p1) (aU p1) (Site.own_sub p2 hwr.1).symm (aV p2) (aU p2) (Site.own_sub p3 hwr.1).symm (aV p3) (aU p3)
    (tw h1 p1) v1.touch.symm (u1.touch hc0 (hE0 p1)).symm (tw h2 p2) v2.touch.symm (u2.touch hc0 (hE0 p2)).symm
    (tw h3 p3) v3.touch.symm (u3.touch hc0 (hE0 p3)).symm

end Verif.Embed
