import Verif.Embed.Tight
import Verif.Embed.Raw
import Verif.Embed.Lists

/-
How the state of the embedder represents an ideal state.
-/
namespace Verif.Embed
open Verif Verif.Graph Verif.EGraph Equiv Equiv.Perm Verif.Map Function
open Verif.Props (AncEq)

/-- What does not change while edges are embedded: the search forest, the arcs in use, the tree arc to every child. With `ap`
set, minors are looked for in the graph with one more vertex that is adjacent to all others. -/
structure Base where
  ap : Bool
  g0 : Graph
  N : Nat
  par : Nat → Nat
  A : Nat → Prop
  ta : Nat → Nat
  hN : g0.N = N
  tw : ∀ e, A e → A (twin e)
  rng : ∀ e, A e → 2 ≤ e ∧ e < g0.eSize
  par_lt : ∀ c, 1 ≤ c → c ≤ N → par c < c
  room : 6 * N ≤ g0.stackCap

/-- Arcs in use. -/
abbrev Base.D (B : Base) : Type := { e // B.A e }

instance (B : Base) : Finite B.D :=
  Finite.of_injective (β := Fin B.g0.eSize) (fun d => ⟨d.1, (B.rng d.1 d.2).2⟩) fun a b h => by
    apply Subtype.ext; simpa using h

/-- The other arc of the edge. -/
def Base.α (B : Base) : Perm B.D where
  toFun d := ⟨twin d.1, B.tw d.1 d.2⟩
  invFun d := ⟨twin d.1, B.tw d.1 d.2⟩
  left_inv d := by apply Subtype.ext; exact twin_twin _
  right_inv d := by apply Subtype.ext; exact twin_twin _

theorem Base.α_val (B : Base) (d : B.D) : (B.α d).1 = twin d.1 := rfl
theorem Base.α_α (B : Base) (d : B.D) : B.α (B.α d) = d := by apply Subtype.ext; exact twin_twin _
theorem Base.α_ne (B : Base) (d : B.D) : B.α d ≠ d := fun h => twin_ne d.1 (congrArg Subtype.val h)

/-- A vertex with a parent. -/
def Base.Child (B : Base) (c : Nat) : Prop := 1 ≤ c ∧ c ≤ B.N ∧ B.par c ≠ 0

/-- The vertex an arc leaves at the start. -/
def Base.own (B : Base) (e : Nat) : Nat := (B.g0.E (twin e)).nbr

/-- The vertex of which `x` is, or is a copy. -/
def Base.home (B : Base) (x : Nat) : Nat := if x ≤ B.N then x else B.par (x - B.N)

theorem Base.home_le {B : Base} {x : Nat} (h : x ≤ B.N) : B.home x = x := if_pos h
theorem Base.home_root {B : Base} {c : Nat} (h : 1 ≤ c) : B.home (c + B.N) = B.par c := by
  have e : c + B.N - B.N = c := by omega
  rw [Base.home, if_neg (by omega), e]

variable {B : Base} {G : Gh B.D} {s : EGraph}

/-- The lists as they are stored: those of vertices with `o` are reversed. -/
def raw (G : Gh B.D) (x : Nat) : List Nat := dir (G.o x) ((G.L x).map (·.1))

theorem mem_raw {x e : Nat} : e ∈ raw G x ↔ ∃ h : B.A e, (⟨e, h⟩ : B.D) ∈ G.L x := by
  unfold raw; rw [mem_dir]; simp

theorem mem_raw' {x : Nat} {d : B.D} : d.1 ∈ raw G x ↔ d ∈ G.L x := by
  rw [mem_raw]; exact ⟨fun ⟨_, h⟩ => h, fun h => ⟨d.2, h⟩⟩

theorem raw_nil {x : Nat} : raw G x = [] ↔ G.L x = [] := by
  unfold raw
  have h : ∀ (b : Bool) (l : List Nat), dir b l = [] ↔ l = [] := fun b l => by cases b <;> simp
  rw [h, List.map_eq_nil_iff]

/-- Where the tree arc to `c` is. -/
def holder (G : Gh B.D) (c : Nat) : Nat := if (G.L (c + B.N)).isEmpty then B.par c else c + B.N

theorem holder_live {c : Nat} (h : G.Live B.N c) : holder G c = c + B.N := by
  unfold holder; rw [if_neg (by simpa using h.2)]

theorem holder_dead {c : Nat} (h : G.L (c + B.N) = []) : holder G c = B.par c := by
  unfold holder; rw [if_pos (by simpa using h)]

/-- The state represents `G`. -/
structure Rep (B : Base) (s : EGraph) (G : Gh B.D) : Prop where
  fix : Fix B.g0 s.p.g
  links : Links s.p.g (raw G)
  owner : ∀ x e, e ∈ raw G x → (s.p.g.E (twin e)).nbr = x
  typ : ∀ e, B.A e → ((s.p.g.E e).flags &&& 14 = 14 ↔ ∃ c, B.Child c ∧ e = B.ta c)
  typ' : ∀ e, B.A e → ((s.p.g.E e).flags &&& 14 = 6 ↔ ∃ c, B.Child c ∧ e = twin (B.ta c))
  hold : ∀ c, B.Child c → B.ta c ∈ raw G (holder G c)
  foot : ∀ c, B.Child c → twin (B.ta c) ∈ raw G c
  sign : ∀ c, B.Child c → (s.p.g.E (B.ta c)).flags.testBit 4 = (G.o c != G.o (holder G c))
  parent : ∀ x, 1 ≤ x → x ≤ B.N → (s.p.VI x).parent = B.par x
  zero : ∀ e, ¬ B.A e → s.p.g.E e = {}
  home : ∀ x e, e ∈ raw G x → B.own e = B.home x

theorem Rep.N (r : Rep B s G) : s.p.g.N = B.N := by rw [r.fix.N, B.hN]
theorem Rep.vSize (r : Rep B s G) : s.p.g.vSize = 1 + B.N + B.N := by unfold Graph.vSize; rw [r.N]
theorem Rep.eSize (r : Rep B s G) : s.p.g.eSize = B.g0.eSize := r.fix.eSize
theorem Rep.arc (r : Rep B s G) {e : Nat} (h : B.A e) : 2 ≤ e ∧ e < s.p.g.eSize := by rw [r.eSize]; exact B.rng e h

/-- Only the links, parents and records matter. -/
theorem Rep.congr (r : Rep B s G) {s' : EGraph} (hf : Fix s.p.g s'.p.g) (hE : s'.p.g.E = s.p.g.E)
    (hV : ∀ v b, (s'.p.g.V v).link b = (s.p.g.V v).link b)
    (hp : ∀ x, 1 ≤ x → x ≤ B.N → (s'.p.VI x).parent = (s.p.VI x).parent) : Rep B s' G := by
  refine ⟨r.fix.trans hf, r.links.congr hf.N hf.arcCap (fun _ _ => by rw [hE]) hV, ?_, ?_, ?_, r.hold, r.foot, ?_, ?_, ?_, r.home⟩
  · rw [hE]; exact r.owner
  · rw [hE]; exact r.typ
  · rw [hE]; exact r.typ'
  · rw [hE]; exact r.sign
  · intro x h1 h2; rw [hp x h1 h2]; exact r.parent x h1 h2
  · rw [hE]; exact r.zero

theorem Rep.of_eq (r : Rep B s G) {s' : EGraph} (hg : s'.p.g = s.p.g)
    (hp : ∀ x, 1 ≤ x → x ≤ B.N → (s'.p.VI x).parent = (s.p.VI x).parent) : Rep B s' G :=
  r.congr (hg ▸ Fix.refl _) (by rw [hg]) (by intros; rw [hg]) hp

theorem fix_stack (g : Graph) (st : List Nat) : Fix g { g with stack := st } := by constructor <;> intros <;> rfl

theorem Rep.stack (r : Rep B s G) (st : List Nat) : Rep B (s.setG { s.p.g with stack := st }) G :=
  r.congr (fix_stack _ _) rfl (fun _ _ => rfl) fun _ _ _ => rfl

/-- The representation of a reflected ideal state is the same. -/
theorem Rep.reflect (r : Rep B s G) (h : Good B.N B.par B.α G) (c : Nat) : Rep B s (G.reflect c) := by
  have hraw : raw (G.reflect c) = raw G := by
    funext x
    unfold raw
    rw [reflect_L]
    show dir (if G.cp x = c then !G.o x else G.o x) _ = _
    split <;> cases G.o x <;> simp
  have hhold : ∀ k, holder (G.reflect c) k = holder G k := by
    intro k
    unfold holder
    have : ((G.reflect c).L (k + B.N)).isEmpty = (G.L (k + B.N)).isEmpty := by
      rw [reflect_L]; split <;> simp
    rw [this]
  refine ⟨r.fix, hraw ▸ r.links, hraw ▸ r.owner, r.typ, r.typ', ?_, hraw ▸ r.foot, ?_, r.parent, r.zero, hraw ▸ r.home⟩
  · intro k hk; rw [hhold, hraw]; exact r.hold k hk
  · intro k hk
    rw [hhold, r.sign k hk]
    have hcp : G.cp k = G.cp (holder G k) := by
      by_cases hl : G.Live B.N k
      · rw [holder_live hl, h.own k hl, (h.root k hl).2.2]
      · have hnil : G.L (k + B.N) = [] := by
          by_contra hh; exact hl ⟨hk.1, hh⟩
        rw [holder_dead hnil, h.joined k hk.1 hk.2.1 hk.2.2 hl]
    show _ = ((if G.cp k = c then !G.o k else G.o k) != (if G.cp (holder G k) = c then !G.o (holder G k) else G.o (holder G k)))
    rw [← hcp]
    split <;> simp

/-- External face links with orientation `o`. -/
def lnk (s : EGraph) (o : Nat → Bool) (x y : Nat) : Prop := s.ext x (o x) = y ∧ s.ext y (!o y) = x

/-- The vertices `Y` with root `R` are linked to a ring, forward by the links `o`. -/
structure Ring (s : EGraph) (R : Nat) (Y : List Nat) (o : Nat → Bool) : Prop where
  chain : List.IsChain (lnk s o) (R :: (Y ++ [R]))
  ne : Y ≠ []
  nodup : Y.Nodup
  root : R ∉ Y
  single : ∀ x, Y = [x] → o x = o R

theorem isChain_congr {α : Type} {r r' : α → α → Prop} : ∀ {l : List α}, (∀ a ∈ l, ∀ b ∈ l, r a b → r' a b) →
    List.IsChain r l → List.IsChain r' l
  | [], _, _ => .nil
  | [_], _, _ => .singleton _
  | a :: b :: l, h, hc => by
    rw [List.isChain_cons_cons] at hc ⊢
    exact ⟨h a (by simp) b (by simp) hc.1, isChain_congr (fun x hx y hy => h x (by simp [hx]) y (by simp [hy])) hc.2⟩

theorem Ring.reverse {R : Nat} {Y : List Nat} {o o' : Nat → Bool} (h : Ring s R Y o) (ho : ∀ x, x = R ∨ x ∈ Y → o' x = !o x) :
    Ring s R Y.reverse o' := by
  refine ⟨?_, by simpa using h.ne, by simpa using h.nodup, by simpa using h.root, ?_⟩
  · have h2 : List.IsChain (fun b a => lnk s o a b) (R :: (Y ++ [R])).reverse := by
      rw [List.isChain_reverse]; exact h.chain
    have e : (R :: (Y ++ [R])).reverse = R :: (Y.reverse ++ [R]) := by simp
    rw [e] at h2
    refine isChain_congr ?_ h2
    intro a ha b hb hab
    have ha' : a = R ∨ a ∈ Y := by simpa [or_comm, or_left_comm] using ha
    have hb' : b = R ∨ b ∈ Y := by simpa [or_comm, or_left_comm] using hb
    refine ⟨?_, ?_⟩
    · rw [ho a ha']; exact hab.2
    · rw [ho b hb', Bool.not_not]; exact hab.1
  · intro x hx
    have : Y = [x] := by
      have := congrArg List.reverse hx
      simpa using this
    rw [ho x (by simp [this]), ho R (.inl rfl), h.single x this]

theorem Ring.congr {R : Nat} {Y : List Nat} {o : Nat → Bool} (h : Ring s R Y o) {s' : EGraph}
    (he : ∀ x, x = R ∨ x ∈ Y → ∀ b, s'.ext x b = s.ext x b) {o' : Nat → Bool} (ho : ∀ x, x = R ∨ x ∈ Y → o' x = o x) :
    Ring s' R Y o' := by
  refine ⟨?_, h.ne, h.nodup, h.root, ?_⟩
  · refine isChain_congr ?_ h.chain
    intro a ha b hb hab
    have ha' : a = R ∨ a ∈ Y := by simpa [or_comm, or_left_comm] using ha
    have hb' : b = R ∨ b ∈ Y := by simpa [or_comm, or_left_comm] using hb
    exact ⟨by rw [he a ha', ho a ha']; exact hab.1, by rw [he b hb', ho b hb']; exact hab.2⟩
  · intro x hx
    rw [ho x (by simp [hx]), ho R (.inl rfl)]; exact h.single x hx

/-- First and last links of a ring. -/
theorem Ring.first {R x : Nat} {T : List Nat} {o : Nat → Bool} (h : Ring s R (x :: T) o) : lnk s o R x := by
  have := h.chain
  rw [List.cons_append, List.isChain_cons_cons] at this
  exact this.1

theorem Ring.last {R x : Nat} {T : List Nat} {o : Nat → Bool} (h : Ring s R (T ++ [x]) o) : lnk s o x R := by
  have := h.chain
  have e : R :: (T ++ [x] ++ [R]) = (R :: T) ++ x :: R :: [] := by simp
  rw [e, List.isChain_append] at this
  exact (List.isChain_cons_cons.1 this.2.1).1

theorem Ring.next {R x y : Nat} {P Q : List Nat} {o : Nat → Bool} (h : Ring s R (P ++ x :: y :: Q) o) : lnk s o x y := by
  have := h.chain
  have e : R :: (P ++ x :: y :: Q ++ [R]) = (R :: P) ++ x :: y :: (Q ++ [R]) := by simp
  rw [e, List.isChain_append] at this
  exact (List.isChain_cons_cons.1 this.2.1).1

/-- The other link of the first vertex leads to the root only if it is alone. -/
theorem Ring.first_ne {R x y : Nat} {T : List Nat} {o : Nat → Bool} (h : Ring s R (x :: y :: T) o) : s.ext x (o x) ≠ R := by
  have h1 := (Ring.next (P := []) h).1
  rw [h1]
  rintro rfl
  exact h.root (by simp)

theorem Ring.last_ne {R x y : Nat} {T : List Nat} {o : Nat → Bool} (h : Ring s R (T ++ [y, x]) o) : s.ext x (!o x) ≠ R := by
  have h1 := (Ring.next (Q := []) h).2
  rw [h1]
  rintro rfl
  exact h.root (by simp)

/-- The way back from the first vertex, as the walk down computes it: link 1 if it leads to the root, else 0. -/
theorem Ring.first_back {R x : Nat} {T : List Nat} {o : Nat → Bool} (h : Ring s R (x :: T) o) (hR : o R = false ∨ T ≠ []) :
    decide (s.ext x true = R) = !o x := by
  have h1 := h.first.2
  cases T with
  | nil =>
    have h2 := h.single x rfl
    have h3 : o x = false := by rcases hR with hR | hR; exacts [h2.trans hR, absurd rfl hR]
    rw [h3] at h1 ⊢
    simpa using h1
  | cons y T =>
    have h2 := h.first_ne
    cases ho : o x
    · rw [ho] at h1; simpa using h1
    · rw [ho] at h2; simpa using h2

theorem Ring.first_back' {R x : Nat} {T : List Nat} {o : Nat → Bool} (h : Ring s R (x :: T) o) (hR : o R = true ∨ T ≠ []) :
    decide (s.ext x false = R) = o x := by
  have h1 := h.first.2
  cases T with
  | nil =>
    have h2 := h.single x rfl
    have h3 : o x = true := by rcases hR with hR | hR; exacts [h2.trans hR, absurd rfl hR]
    rw [h3] at h1 ⊢
    simpa using h1
  | cons y T =>
    have h2 := h.first_ne
    cases ho : o x
    · rw [ho] at h2; simpa using h2
    · rw [ho] at h1; simpa using h1

/-- The way back from the next vertex. -/
theorem Ring.next_back {R x y : Nat} {P Q : List Nat} {o : Nat → Bool} (h : Ring s R (P ++ x :: y :: Q) o) :
    decide (s.ext y false = x) = o y := by
  have h1 := h.next.2
  have h2 : s.ext y (o y) ≠ x := by
    cases Q with
    | nil =>
      have e : P ++ [x, y] = (P ++ [x]) ++ [y] := by simp
      rw [e] at h
      rw [h.last.1]
      rintro rfl
      exact h.root (by simp)
    | cons z Q =>
      have e : P ++ x :: y :: z :: Q = (P ++ [x]) ++ y :: z :: Q := by simp
      have h3 := h
      rw [e] at h3
      rw [h3.next.1]
      rintro rfl
      have := h.nodup
      rw [List.nodup_append] at this
      have := this.2.1
      simp at this
  cases ho : o y
  · rw [ho] at h2; simpa using h2
  · rw [ho] at h1; simpa using h1

/-- Component `c` is closed: its vertices are linked to a ring, and the outer face passes every vertex once. -/
structure Closed (B : Base) (s : EGraph) (G : Gh B.D) (c : Nat) : Prop extends Ring s (c + B.N) (G.X c) G.o where
  tight : G.Tight B.α B.N c

/-- All rings are closed. -/
def Rings (B : Base) (s : EGraph) (G : Gh B.D) : Prop := ∀ c, G.Live B.N c → Closed B s G c

theorem Rings.congr (h : Rings B s G) {s' : EGraph} (he : s'.ext = s.ext) : Rings B s' G :=
  fun c hc => ⟨(h c hc).congr (fun _ _ _ => by rw [he]) fun _ _ => rfl, (h c hc).tight⟩

theorem Rings.reflect (hr : Rings B s G) (h : Good B.N B.par B.α G) {c : Nat} (hc : G.Live B.N c) : Rings B s (G.reflect c) := by
  intro k hk
  rw [reflect_live] at hk
  refine ⟨?_, (hr k hk).tight.reflect B.α_α h hk⟩
  show Ring s (k + B.N) (update G.X c (G.X c).reverse k) fun x => if G.cp x = c then !G.o x else G.o x
  have hcp : ∀ x, x = k + B.N ∨ x ∈ G.X k → G.cp x = k := by
    rintro x (rfl | hx)
    · exact (h.root k hk).2.2
    · exact (h.bd k hk x hx).2.2
  by_cases hkc : k = c
  · subst hkc
    rw [update_self]
    exact (hr k hk).reverse fun x hx => by show (if G.cp x = k then !G.o x else G.o x) = _; rw [if_pos (hcp x hx)]
  · rw [update_of_ne hkc]
    refine (hr k hk).congr (fun _ _ _ => rfl) fun x hx => ?_
    show (if G.cp x = c then !G.o x else G.o x) = _
    rw [if_neg (by rw [hcp x hx]; exact hkc)]

end Verif.Embed
