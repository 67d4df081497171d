import Verif.Embed.Isolate
import Verif.Embed.Sound

/-
What the marking of paths leaves unchanged.
-/
namespace Verif.Isolate
open Verif Verif.Embed Verif.Graph Verif.EGraph Verif.Random Verif.Test Function

/-- Every result satisfies `Q`. -/
def Ens {α : Type} (o : Option α) (Q : α → Prop) : Prop := ∀ a, o = some a → Q a

section
variable {α β : Type} {o : Option α} {f : α → Option β} {P : α → Prop} {Q : β → Prop}

theorem Ens.bind (h : Ens o P) (h' : ∀ a, P a → Ens (f a) Q) : Ens (o >>= f) Q := by
  intro b hb
  obtain ⟨a, ha, hb⟩ := Option.bind_eq_some_iff.1 hb
  exact h' a (h a ha) b hb
theorem Ens.skip (h : ∀ a, o = some a → Ens (f a) Q) : Ens (o >>= f) Q := Ens.bind (P := fun a => o = some a) (fun _ h => h) h
theorem Ens.pure {a : α} (h : P a) : Ens (pure a) P := fun _ hb => Option.some.inj hb ▸ h
theorem Ens.some {a : α} (h : P a) : Ens (some a) P := fun _ hb => Option.some.inj hb ▸ h
theorem Ens.none : Ens (none : Option α) P := fun _ hb => by cases hb
theorem Ens.ite {c : Prop} [Decidable c] {a b : Option α} (h : c → Ens a P) (h' : ¬ c → Ens b P) : Ens (if c then a else b) P := by
  split
  · exact h ‹_›
  · exact h' ‹_›
theorem Ens.mono {P' : α → Prop} (h : Ens o P) (h' : ∀ a, P a → P' a) : Ens o P' := fun a ha => h' a (h a ha)
theorem Ens.fold {γ : Type} {R : α → Prop} {f : α → γ → Option α} : ∀ (l : List γ) {a : α}, R a → (∀ a c, R a → Ens (f a c) R) →
    Ens (l.foldlM f a) R
  | [], _, h, _ => Ens.some h
  | c :: l, a, h, h' => Ens.bind (h' a c h) fun b hb => Ens.fold l hb h'
end

/-- The graph without marks, types and the work stack. -/
def strip (g : Graph) : Graph :=
  { g with V := fun v => { g.V v with flags := 0 }, E := fun e => { g.E e with flags := 0 }, stack := [] }

/-- Arc records that are not in use are blank. -/
def Blank (A : Nat → Prop) (g : Graph) : Prop := ∀ e, ¬ A e → g.E e = {}

/-- Only marks, types and the stack changed, and blank records stay blank. -/
structure Fr (A : Nat → Prop) (g g' : Graph) : Prop where
  strip : strip g' = strip g
  blank : Blank A g → Blank A g'

variable {A : Nat → Prop} {g g' g'' : Graph}

theorem Fr.refl (A : Nat → Prop) (g : Graph) : Fr A g g := ⟨rfl, id⟩
theorem Fr.trans (h : Fr A g g') (h' : Fr A g' g'') : Fr A g g'' := ⟨h'.strip.trans h.strip, fun hh => h'.blank (h.blank hh)⟩

section
variable (h : strip g' = strip g)
include h
theorem strip_N : g'.N = g.N := by have := congrArg Graph.N h; exact this
theorem strip_M : g'.M = g.M := by have := congrArg Graph.M h; exact this
theorem strip_arcCap : g'.arcCap = g.arcCap := by have := congrArg Graph.arcCap h; exact this
theorem strip_holes : g'.holes = g.holes := by have := congrArg Graph.holes h; exact this
theorem strip_holesCap : g'.holesCap = g.holesCap := by have := congrArg Graph.holesCap h; exact this
theorem strip_stackCap : g'.stackCap = g.stackCap := by have := congrArg Graph.stackCap h; exact this
theorem strip_flags : g'.flags = g.flags := by have := congrArg Graph.flags h; exact this
theorem strip_vlink (v : Nat) (b : Bool) : (g'.V v).link b = (g.V v).link b := by have := congrArg (fun g => (g.V v).link b) h; exact this
theorem strip_index (v : Nat) : (g'.V v).index = (g.V v).index := by have := congrArg (fun g => (g.V v).index) h; exact this
theorem strip_elink (e : Nat) (b : Bool) : (g'.E e).link b = (g.E e).link b := by have := congrArg (fun g => (g.E e).link b) h; exact this
theorem strip_nbr (e : Nat) : (g'.E e).nbr = (g.E e).nbr := by have := congrArg (fun g => (g.E e).nbr) h; exact this
theorem strip_vSize : g'.vSize = g.vSize := by unfold vSize; rw [strip_N h]
theorem strip_eSize : g'.eSize = g.eSize := by unfold eSize; rw [strip_arcCap h]
end

theorem strip_stack (g : Graph) (st : List Nat) : strip { g with stack := st } = strip g := rfl

theorem fr_stack (g : Graph) (st : List Nat) : Fr A g { g with stack := st } := ⟨rfl, id⟩

theorem push_fr (x : Nat) : Ens (g.push x) (Fr A g) := by
  unfold push
  exact Ens.ite (fun _ => Ens.some (fr_stack _ _)) fun _ => Ens.none

theorem push2_fr (x y : Nat) : Ens (g.push2 x y) (Fr A g) := by
  unfold push2
  exact Ens.bind (push_fr x) fun _ h => (push_fr y).mono fun _ h' => h.trans h'

theorem pop_fr : Ens g.pop fun r => Fr A g r.2 := by
  unfold pop
  split
  · exact Ens.some (fr_stack _ _)
  · exact Ens.none

/-- Writing the flags of a vertex. -/
theorem wrV_fr (v n : Nat) : Ens (g.wrV v { g.V v with flags := n }) (Fr A g) := by
  unfold wrV
  refine Ens.ite (fun _ => Ens.some ⟨?_, id⟩) fun _ => Ens.none
  unfold strip
  congr 1
  funext x
  by_cases hx : x = v
  · subst hx; simp
  · simp [hx]

theorem rdV_val (v : Nat) : Ens (g.rdV v) fun r => r = g.V v := by
  unfold rdV; exact Ens.ite (fun _ => Ens.some rfl) fun _ => Ens.none
theorem rdE_val (e : Nat) : Ens (g.rdE e) fun r => r = g.E e := by
  unfold rdE; exact Ens.ite (fun _ => Ens.some rfl) fun _ => Ens.none
theorem getArc_val (v : Nat) (b : Bool) : Ens (g.getArc v b) fun a => v < g.vSize ∧ a = (g.V v).link b := by
  intro a ha
  unfold getArc rdV at ha
  by_cases hv : v < g.vSize
  · rw [if_pos hv] at ha; exact ⟨hv, (Option.some.inj ha).symm⟩
  · rw [if_neg hv] at ha; cases ha
theorem getAdj_val (e : Nat) (b : Bool) : Ens (g.getAdj e b) fun a => a = (g.E e).link b := by
  unfold getAdj; exact Ens.bind (rdE_val e) fun _ h => Ens.pure (by rw [h])
theorem getNbr_val (e : Nat) : Ens (g.getNbr e) fun a => a = (g.E e).nbr := by
  unfold getNbr; exact Ens.bind (rdE_val e) fun _ h => Ens.pure (by rw [h])

theorem setVisited_fr (v : Nat) : Ens (g.setVisited v) (Fr A g) := by
  unfold setVisited; exact Ens.bind (rdV_val v) fun _ h => by rw [h]; exact wrV_fr v _
theorem clearVisited_fr (v : Nat) : Ens (g.clearVisited v) (Fr A g) := by
  unfold clearVisited; exact Ens.bind (rdV_val v) fun _ h => by rw [h]; exact wrV_fr v _
theorem clearObst_fr (v : Nat) : Ens (clearObst g v) (Fr A g) := by
  unfold clearObst; exact Ens.bind (rdV_val v) fun _ h => by rw [h]; exact wrV_fr v _
theorem resetObst_fr (v t : Nat) : Ens (resetObst g v t) (Fr A g) := by
  unfold resetObst; exact Ens.bind (rdV_val v) fun _ h => by rw [h]; exact wrV_fr v _

/-- Writing the flags of an arc. -/
theorem wrE_fr (e n : Nat) (hn : A e ∨ (g.E e = {} → n = 0)) : Ens (g.wrE e { g.E e with flags := n }) (Fr A g) := by
  unfold wrE
  refine Ens.ite (fun _ => Ens.some ⟨?_, ?_⟩) fun _ => Ens.none
  · unfold strip
    congr 1
    funext x
    by_cases hx : x = e
    · subst hx; simp
    · simp [hx]
  · intro hb x hx
    show update g.E e _ x = _
    by_cases hxe : x = e
    · subst hxe
      rw [update_self, hb x hx, (hn.resolve_left hx) (hb x hx)]
    · rw [update_of_ne hxe]; exact hb x hx

theorem clearEdgeVisited_fr (e : Nat) : Ens (clearEdgeVisited g e) (Fr A g) := by
  unfold clearEdgeVisited
  exact Ens.bind (rdE_val e) fun _ h => by rw [h]; exact wrE_fr e _ (.inr fun h => by rw [h]; rfl)
theorem setEdgeVisited_fr {e : Nat} (h : A e) : Ens (setEdgeVisited g e) (Fr A g) := by
  unfold setEdgeVisited
  exact Ens.bind (rdE_val e) fun _ h' => by rw [h']; exact wrE_fr e _ (.inl h)
theorem markEdge_fr {e : Nat} (h : A e) (h' : A (twin e)) : Ens (markEdge g e) (Fr A g) := by
  unfold markEdge
  exact Ens.bind (setEdgeVisited_fr h) fun _ k => (setEdgeVisited_fr h').mono fun _ k' => k.trans k'
theorem unmarkEdge_fr (e : Nat) : Ens (unmarkEdge g e) (Fr A g) := by
  unfold unmarkEdge
  exact Ens.bind (clearEdgeVisited_fr e) fun _ k => (clearEdgeVisited_fr _).mono fun _ k' => k.trans k'

theorem clearFlags_fr : Ens (clearFlags g) (Fr A g) := by
  unfold clearFlags
  refine Ens.bind (P := Fr A g) (Ens.fold _ (Fr.refl _ _) fun a c h => (clearVisited_fr _).mono fun _ h' => h.trans h') fun _ h => ?_
  exact Ens.fold _ h fun a c h => (clearEdgeVisited_fr _).mono fun _ h' => h.trans h'

theorem pushKidsKeep_fr (flag : Nat) : ∀ (fuel : Nat) (g : Graph) (e : Nat), Ens (pushKidsKeep flag fuel g e) (Fr A g)
  | 0, g, e => by unfold pushKidsKeep; exact Ens.ite (fun _ => Ens.some (Fr.refl _ _)) fun _ => Ens.none
  | fuel + 1, g, e => by
    unfold pushKidsKeep
    refine Ens.ite (fun _ => Ens.some (Fr.refl _ _)) fun _ => Ens.skip fun t _ => ?_
    have hj : ∀ g1, Fr A g g1 → Ens (g1.getAdj e false >>= fun n => pushKidsKeep flag fuel g1 n) (Fr A g) :=
      fun g1 h1 => Ens.skip fun n _ => (pushKidsKeep_fr flag fuel g1 n).mono fun _ h => h1.trans h
    exact Ens.ite (fun _ => Ens.skip fun w _ => Ens.skip fun i _ => Ens.bind (push2_fr _ _) hj) fun _ => Ens.bind (Ens.some (Fr.refl _ _)) hj

theorem clearArcs_fr : ∀ (fuel : Nat) (g : Graph) (e : Nat), Ens (clearArcs fuel g e) (Fr A g)
  | 0, g, e => by unfold clearArcs; exact Ens.ite (fun _ => Ens.some (Fr.refl _ _)) fun _ => Ens.none
  | fuel + 1, g, e => by
    unfold clearArcs
    refine Ens.ite (fun _ => Ens.some (Fr.refl _ _)) fun _ => Ens.bind (clearEdgeVisited_fr (A := A) e) fun g0 h0 => Ens.skip fun t _ => ?_
    have hj : ∀ g1, Fr A g g1 → Ens (g1.getAdj e false >>= fun n => clearArcs fuel g1 n) (Fr A g) :=
      fun g1 h1 => Ens.skip fun n _ => (clearArcs_fr fuel g1 n).mono fun _ h => h1.trans h
    exact Ens.ite (fun _ => Ens.skip fun w _ => Ens.bind (push_fr _) fun _ h => hj _ (h0.trans h)) fun _ => Ens.bind (Ens.some h0) hj

theorem clearLoop_fr (bottom : Nat) : ∀ (fuel : Nat) (g : Graph), Ens (clearLoop bottom fuel g) (Fr A g)
  | 0, g => by unfold clearLoop; exact Ens.ite (fun _ => Ens.some (Fr.refl _ _)) fun _ => Ens.none
  | fuel + 1, g => by
    unfold clearLoop
    refine Ens.ite (fun _ => Ens.some (Fr.refl _ _)) fun _ => Ens.bind (pop_fr (A := A)) fun ⟨v, g1⟩ h1 => ?_
    refine Ens.bind (clearVisited_fr (A := A) v) fun g2 h2 => Ens.skip fun a _ => Ens.bind (clearArcs_fr (A := A) _ g2 a) fun g3 h3 => ?_
    exact (clearLoop_fr bottom fuel g3).mono fun _ h => ((h1.trans h2).trans h3).trans h

theorem clearBicomp_fr (R : Nat) : Ens (clearBicomp g R) (Fr A g) := by
  unfold clearBicomp
  exact Ens.bind (push_fr (A := A) R) fun g1 h1 => (clearLoop_fr _ _ g1).mono fun _ h => h1.trans h

theorem typeArcs_fr : ∀ (fuel : Nat) (g : Graph) (e : Nat), Ens (typeArcs fuel g e) (Fr A g)
  | 0, g, e => by unfold typeArcs; exact Ens.ite (fun _ => Ens.some (Fr.refl _ _)) fun _ => Ens.none
  | fuel + 1, g, e => by
    unfold typeArcs
    refine Ens.ite (fun _ => Ens.some (Fr.refl _ _)) fun _ => Ens.skip fun t _ => ?_
    have hj : ∀ g1, Fr A g g1 → Ens (g1.getAdj e false >>= fun n => typeArcs fuel g1 n) (Fr A g) :=
      fun g1 h1 => Ens.skip fun n _ => (typeArcs_fr fuel g1 n).mono fun _ h => h1.trans h
    exact Ens.ite (fun _ => Ens.skip fun w _ => Ens.bind (push_fr _) hj) fun _ => Ens.bind (Ens.some (Fr.refl _ _)) hj

theorem typeLoop_fr (bottom : Nat) : ∀ (fuel : Nat) (g : Graph), Ens (typeLoop bottom fuel g) (Fr A g)
  | 0, g => by unfold typeLoop; exact Ens.ite (fun _ => Ens.some (Fr.refl _ _)) fun _ => Ens.none
  | fuel + 1, g => by
    unfold typeLoop
    refine Ens.ite (fun _ => Ens.some (Fr.refl _ _)) fun _ => Ens.bind (pop_fr (A := A)) fun ⟨v, g1⟩ h1 => ?_
    refine Ens.bind (clearObst_fr (A := A) v) fun g2 h2 => Ens.skip fun a _ => Ens.bind (typeArcs_fr (A := A) _ g2 a) fun g3 h3 => ?_
    exact (typeLoop_fr bottom fuel g3).mono fun _ h => ((h1.trans h2).trans h3).trans h

theorem clearTypes_fr (R : Nat) : Ens (clearTypes g R) (Fr A g) := by
  unfold clearTypes
  exact Ens.bind (push_fr (A := A) R) fun g1 h1 => (typeLoop_fr _ _ g1).mono fun _ h => h1.trans h

theorem typeSide_fr (X W low : Nat) : ∀ (fuel : Nat) (g : Graph) (z : Nat) (prev : Bool) (t : Nat), Ens (typeSide X W low fuel g z prev t) (Fr A g)
  | 0, _, _, _, _ => Ens.none
  | fuel + 1, g, z, prev, t => by
    unfold typeSide
    refine Ens.ite (fun _ => Ens.some (Fr.refl _ _)) fun _ => Ens.bind (resetObst_fr (A := A) _ _) fun g1 h1 => Ens.skip fun ⟨z', p'⟩ _ => ?_
    exact (typeSide_fr X W low fuel g1 _ _ _).mono fun _ h => h1.trans h

/-! Lists of arcs. -/

/-- The lists of the graph, and what is needed to walk along them. -/
structure Lk (A : Nat → Prop) (g : Graph) (L : Nat → List Nat) : Prop where
  links : Links g L
  owner : ∀ x e, e ∈ L x → (g.E (twin e)).nbr = x
  pair : ∀ x e, e ∈ L x → ∃ y, twin e ∈ L y
  arc : ∀ x e, e ∈ L x → A e
  apart : ∀ x e, e ∈ L x → twin e ∉ L x
  blank : Blank A g
  nil : ¬ A 0

variable {L : Nat → List Nat}

theorem Lk.fr (k : Lk A g L) (h : Fr A g g') : Lk A g' L :=
  ⟨k.links.congr (strip_N h.strip) (strip_arcCap h.strip) (strip_elink h.strip) (strip_vlink h.strip),
    fun x e he => by rw [strip_nbr h.strip]; exact k.owner x e he, k.pair, k.arc, k.apart, h.blank k.blank, k.nil⟩

theorem Lk.zero (k : Lk A g L) : g.E 0 = {} := k.blank 0 k.nil

theorem Lk.at_zero (k : Lk A g L) : L 0 = [] := by
  by_contra h
  obtain ⟨e, l, he⟩ := List.exists_cons_of_ne_nil h
  have := (k.links.vert 0 e (by rw [he]; simp)).1
  omega

theorem Lk.first (k : Lk A g L) (v : Nat) (b : Bool) : Ens (g.getArc v b) fun a => (L v = [] ∧ a = 0) ∨ (a ≠ 0 ∧ a ∈ L v) := by
  refine (getArc_val v b).mono ?_
  rintro a ⟨hv, rfl⟩
  rw [k.links.vlink v b hv]
  by_cases h : endIn b (L v) = 0
  · exact .inl ⟨(endIn_zero_iff (k.links.zero_not_mem v)).1 h, h⟩
  · exact .inr ⟨h, endIn_mem h⟩

theorem Lk.head (k : Lk A g L) {x e : Nat} (he : e ∈ L x) : twin e ∈ L (g.E e).nbr := by
  obtain ⟨y, hy⟩ := k.pair x e he
  have := k.owner y _ hy
  rw [twin_twin] at this
  rw [this]; exact hy

theorem nextIn_mem : ∀ {l : List Nat} {e : Nat}, nextIn l e ≠ 0 → nextIn l e ∈ l
  | [], _, h => absurd rfl h
  | a :: l, e, h => by
    unfold nextIn at h ⊢
    split
    · rename_i h1
      rw [if_pos h1] at h
      cases l with
      | nil => exact absurd rfl h
      | cons b l => simp
    · rename_i h1
      rw [if_neg h1] at h
      exact List.mem_cons_of_mem _ (nextIn_mem h)

end Verif.Isolate
