import Verif.Embed.InitStart
import Verif.Embed.Step

/-
The state of _EmbeddingInitialize after the vertices are sorted.
-/
namespace Verif.Embed
open Verif Verif.Graph Verif.EGraph Verif.DFS Function
open Verif.Props (AncEq Anc Forest IsPrimary ArcTo)

/-- The state before the second loop: `B` has the forest, `nb` the ends of arcs, `la` the least ancestors. -/
structure Prep (B : Base) (nb la : Nat → Nat) (fw kid : Nat → List Nat) (s : EGraph) : Prop where
  g0 : s.p.g = B.g0
  ta : ∀ c, B.Child c → B.A (B.ta c) ∧ (s.p.g.E (B.ta c)).nbr = c ∧ (s.p.g.E (twin (B.ta c))).nbr = B.par c ∧
    ∀ b, (s.p.g.V (c + B.N)).link b = B.ta c
  noRoot : ∀ v, B.N < v → v ≤ B.N + B.N → ¬ B.Child (v - B.N) → ∀ b, (s.p.g.V v).link b = 0
  zeroV : ∀ b, (s.p.g.V 0).link b = 0
  typ : ∀ e, B.A e → ((s.p.g.E e).flags &&& 14 = 14 ↔ ∃ c, B.Child c ∧ e = B.ta c)
  typ' : ∀ e, B.A e → ((s.p.g.E e).flags &&& 14 = 6 ↔ ∃ c, B.Child c ∧ e = twin (B.ta c))
  sign : ∀ c, B.Child c → (s.p.g.E (B.ta c)).flags.testBit 4 = false
  zero : ∀ e, ¬ B.A e → s.p.g.E e = {}
  parent : ∀ x, 1 ≤ x → x ≤ B.N → (s.p.VI x).parent = B.par x
  fwl : Lists (arcs s.p.g) (fwh s.p) B.N fw
  fwA : ∀ u, ∀ f ∈ fw u, B.A f ∧ (s.p.g.E f).nbr = nb f ∧ (1 ≤ u ∧ u ≤ B.N) ∧ (1 ≤ nb f ∧ nb f ≤ B.N)
  fwOwn : ∀ u, ∀ f ∈ fw u, B.own f = u
  fwPair : ∀ u w e, e ∈ fw u → twin e ∉ fw w
  fwTree : ∀ u, ∀ f ∈ fw u, ∀ c, B.Child c → f ≠ B.ta c ∧ f ≠ twin (B.ta c)
  cover : ∀ e, B.A e → (∃ c, B.Child c ∧ (e = B.ta c ∨ e = twin (B.ta c))) ∨ ∃ u, e ∈ fw u ∨ twin e ∈ fw u
  fwAnc : ∀ u, ∀ f ∈ fw u, Anc B.par u (nb f)
  fwFar : ∀ u, ∀ f ∈ fw u, B.par (nb f) ≠ u
  fwSort : ∀ u, (fw u).Pairwise fun f f' => nb f < nb f'
  kl : Lists s.kids (fun x => (s.p.VI x).sortedDFSChildList) B.N kid
  kidIff : ∀ x c, c ∈ kid x ↔ B.Child c ∧ B.par c = x
  kidSort : ∀ x, (kid x).Pairwise (· < ·)
  laEq : ∀ x, 1 ≤ x → x ≤ B.N → (s.p.VI x).leastAncestor = la x
  laLe : ∀ u, ∀ f ∈ fw u, la (nb f) ≤ u
  laHit : ∀ x, 1 ≤ x → x ≤ B.N → la x = x ∨ ∃ f ∈ fw (la x), nb f = x
  consecutive : ∀ u w x, 1 ≤ u → x ≤ B.N → AncEq B.par u x → u ≤ w → w ≤ x → AncEq B.par u w
  pe : ∀ x, (s.p.VI x).pertinentEdge = 0 ∧ (s.p.VI x).pertinentRoots = 0
  roots : s.roots = LC.new (1 + B.N)

/-- Lists under new names of the vertices. -/
theorem Lists.rename {c c' : LC.Coll} {hd hd' : Nat → Nat} {n : Nat} {Ls : Nat → List Nat} (h : Lists c hd n Ls) {idx inv : Nat → Nat}
    (hb : ∀ d, 1 ≤ d → d ≤ n → 1 ≤ inv d ∧ inv d ≤ n ∧ idx (inv d) = d) (hN : c'.N = c.N)
    (hh : ∀ z, 1 ≤ z → z ≤ n → hd' z = hd (inv z)) (hc : ∀ y, c'.next y = c.next y ∧ c'.prev y = c.prev y) :
    Lists c' hd' n (fun d => if 1 ≤ d ∧ d ≤ n then Ls (inv d) else []) := by
  constructor
  · intro z h1 h2
    rw [if_pos ⟨h1, h2⟩, hh z h1 h2]
    exact h.head _ (hb z h1 h2).1 (hb z h1 h2).2.1
  · intro z
    show LC.Ring c' (if 1 ≤ z ∧ z ≤ n then Ls (inv z) else [])
    split
    · exact LC.ring_congr (h.ring _) (fun y _ => (hc y).1) (fun y _ => (hc y).2)
    · trivial
  · intro z
    show (if 1 ≤ z ∧ z ≤ n then Ls (inv z) else []).Nodup
    split
    · exact h.nodup _
    · exact List.nodup_nil
  · intro z y hy
    have hy : y ∈ (if 1 ≤ z ∧ z ≤ n then Ls (inv z) else []) := hy
    split at hy
    · rw [hN]; exact h.bound _ y hy
    · cases hy
  · intro z w y hz hw
    have hz : y ∈ (if 1 ≤ z ∧ z ≤ n then Ls (inv z) else []) := hz
    have hw : y ∈ (if 1 ≤ w ∧ w ≤ n then Ls (inv w) else []) := hw
    split at hz
    · next h1 =>
      split at hw
      · next h2 =>
        have := h.disj _ _ y hz hw
        rw [← (hb z h1.1 h1.2).2.2, this, (hb w h2.1 h2.2).2.2]
      · cases hw
    · cases hz

theorem prep_of_search {s0 : PGraph} {rot : Nat → List Nat} {r : Rec} {order : List Nat} {s : EGraph} (hI : PInv s0 rot)
    (hf : s0.g.dfsNumbered = false) (hclean : ∀ u, ∀ e ∈ rot u, (s0.g.E e).flags &&& 30 = 0) (hsim : Simple s0 rot)
    (h : SrchAt s0 rot r order [] s) (hl : s0.g.N ≤ order.length) (ap : Bool) :
    ∃ p, (s.setG { s.p.g with flags := s.p.g.flags ||| 1 }).p.sortVertices = some (p, .ok) ∧ ∃ (inv : Nat → Nat) (B : Base) (nb la : Nat → Nat) (fw kid : Nat → List Nat),
      Numbering (searched s0 r order).g inv ∧ Forest (searched s0 r order) r.idx r.par ∧
      PInv (searched s0 r order) rot ∧
      (∀ e, B.A e ↔ ∃ u, e ∈ rot u) ∧ B.N = s0.g.N ∧
      (∀ d, 1 ≤ d → d ≤ s0.g.N → B.par d = sortPar (searched s0 r order).g inv r.par d) ∧
      (∀ u, ∀ e ∈ rot u, (p.g.E e).nbr = r.idx (hdOf s0 e) ∧ ∃ t, (p.g.E e).flags = (s0.g.E e).flags ||| t ∧ t &&& 14 = t) ∧
      (p.g.M = s0.g.M ∧ p.g.arcCap = s0.g.arcCap ∧ p.g.holes = s0.g.holes ∧ p.g.holesCap = s0.g.holesCap ∧
        p.g.stackCap = s0.g.stackCap ∧ p.g.flags = (s0.g.flags ||| 1) ^^^ 2) ∧
      (∀ d, 1 ≤ d → d ≤ s0.g.N → (p.g.V d).index = inv d) ∧ B.ap = ap ∧
      Prep B nb la fw kid (s.setP p) := by
  obtain ⟨cur, fw, kid, hS⟩ := h.srch
  have D := h.dinv
  have hStart := hI.start hf
  have hst := hStart.static
  obtain ⟨hlen, hall⟩ := full_order D.nodup D.range hl
  have hIs := hI.searched D h.frame hlen
  have hF := forest_searched hI hf D h.frame hlen
  have hnumd : (searched s0 r order).g.dfsNumbered = true := by simp [dfsNumbered, DFS.searched, PGraph.setG]
  obtain ⟨⟨inv, hn⟩, hpl⟩ := hIs.numbered hnumd
  have hFs := forest_sorted hIs hn hpl hnumd hF (fun _ _ => rfl)
  have hIsort := hIs.sorted hn hpl hnumd
  have hout : ∀ u, 1 ≤ u → u ≤ s0.g.N → 1 ≤ r.idx u ∧ r.idx u ≤ s0.g.N ∧ inv (r.idx u) = u := hn.out
  have hback : ∀ d, 1 ≤ d → d ≤ s0.g.N → 1 ≤ inv d ∧ inv d ≤ s0.g.N ∧ r.idx (inv d) = d := hn.back
  have hpl : ∀ u, 1 ≤ u → u ≤ s0.g.N → r.par u ≤ s0.g.N := hpl
  -- the sort
  have hnum1 : ((s.setG { s.p.g with flags := s.p.g.flags ||| 1 }).p).g.dfsNumbered = true := by
    simp [dfsNumbered, EGraph.setG, PGraph.setG]
  have hends : Ends (s.setG { s.p.g with flags := s.p.g.flags ||| 1 }).p.g := by
    have := hI.inv.ends
    have e1 : (s.setG { s.p.g with flags := s.p.g.flags ||| 1 }).p.g.inUse = s0.g.inUse := by
      unfold inUse
      show 2 + (s.p.g.M + s.p.g.holes.length) * 2 = _
      rw [hS.M, hS.holes]
    have e2 : (s.setG { s.p.g with flags := s.p.g.flags ||| 1 }).p.g.eSize = s0.g.eSize := by
      unfold eSize; show 2 + s.p.g.arcCap = _; rw [hS.arcCap]
    have e3 : (s.setG { s.p.g with flags := s.p.g.flags ||| 1 }).p.g.vSize = s0.g.vSize := by
      unfold vSize; show 1 + s.p.g.N + s.p.g.N = _; rw [hS.N]
    refine ⟨by rw [e1, e2]; exact this.1, ?_⟩
    intro e he
    have e4 : ∀ e, ((s.setG { s.p.g with flags := s.p.g.flags ||| 1 }).p.g.E e).nbr = (s0.g.E e).nbr := hS.nbr
    rw [e4] at he
    rw [e1, e3, e4, e4]
    exact this.2 e he
  have hn1 : Numbering (s.setG { s.p.g with flags := s.p.g.flags ||| 1 }).p.g inv := by
    have e1 : (s.setG { s.p.g with flags := s.p.g.flags ||| 1 }).p.g.N = s0.g.N := hS.N
    have e2 : ∀ u, u ≤ s0.g.N → ((s.setG { s.p.g with flags := s.p.g.flags ||| 1 }).p.g.V u).index = r.idx u := hS.idx
    constructor
    · intro u h1 h2; rw [e1] at h2 ⊢; rw [e2 u h2]; exact hout u h1 h2
    · intro d h1 h2; rw [e1] at h2 ⊢; have := hback d h1 h2; rw [e2 _ this.2.1]; exact this
  have hp1 : ∀ u, 1 ≤ u → u ≤ (s.setG { s.p.g with flags := s.p.g.flags ||| 1 }).p.g.N →
      ((s.setG { s.p.g with flags := s.p.g.flags ||| 1 }).p.VI u).parent ≤ (s.setG { s.p.g with flags := s.p.g.flags ||| 1 }).p.g.N := by
    intro u h1 h2
    have h2 : u ≤ s.p.g.N := h2
    show (s.p.VI u).parent ≤ s.p.g.N
    rw [hS.N] at h2 ⊢
    rw [hS.par u h1 h2]; exact hpl u h1 h2
  refine ⟨sortedOf (s.setG { s.p.g with flags := s.p.g.flags ||| 1 }).p inv, ?_, ?_⟩
  · unfold PGraph.sortVertices
    rw [if_pos hnum1, sortBody_eq' hends hn1 hp1]
    rfl
  have hrel : ∀ n, n ≤ s0.g.N → relab (s.setG { s.p.g with flags := s.p.g.flags ||| 1 }).p.g n = relab (searched s0 r order).g n := by
    intro n hn
    unfold relab
    split
    · rfl
    · exact hS.idx n hn
  have hrel' : ∀ n, 1 ≤ n → relab (searched s0 r order).g n = r.idx n := by
    intro n hn; unfold relab; rw [if_neg (by omega)]; rfl
  have hNbr : ∀ u, ∀ e ∈ rot u, ((sortedOf (s.setG { s.p.g with flags := s.p.g.flags ||| 1 }).p inv).g.E e).nbr = r.idx (hdOf s0 e) := by
    intro u e he
    have hp := hst.hdPrim he
    show relab _ (s.p.g.E e).nbr = _
    rw [hS.nbr, hrel _ hp.2, hrel' _ hp.1]
  have hDead : ∀ e, (∀ u, e ∉ rot u) → (sortedOf (s.setG { s.p.g with flags := s.p.g.flags ||| 1 }).p inv).g.E e = {} := by
    intro e he
    have hz := hS.dead e he
    have hz' : (s.setG { s.p.g with flags := s.p.g.flags ||| 1 }).p.g.E e = {} := hz
    show relabE _ e = {}
    rw [relab_zero_rec (by rw [hz']), hz']
  have hFlag : ∀ e, ((sortedOf (s.setG { s.p.g with flags := s.p.g.flags ||| 1 }).p inv).g.E e).flags = (s.p.g.E e).flags := fun _ => rfl
  have hLink : ∀ e b, ((sortedOf (s.setG { s.p.g with flags := s.p.g.flags ||| 1 }).p inv).g.E e).link b = (s.p.g.E e).link b := by
    intro e b; cases b <;> rfl
  have hV : ∀ d, 1 ≤ d → d ≤ s0.g.N → (sortedOf (s.setG { s.p.g with flags := s.p.g.flags ||| 1 }).p inv).g.V d =
      { s.p.g.V (inv d) with index := inv d, flags := (s.p.g.V (inv d)).flags / 2 * 2 ||| 1 } := by
    intro d h1 h2; exact if_pos ⟨h1, by show d ≤ s.p.g.N; rw [hS.N]; exact h2⟩
  have hV' : ∀ d, ¬ (1 ≤ d ∧ d ≤ s0.g.N) → (sortedOf (s.setG { s.p.g with flags := s.p.g.flags ||| 1 }).p inv).g.V d = s.p.g.V d := by
    intro d hd; exact if_neg (by show ¬ (1 ≤ d ∧ d ≤ s.p.g.N); rw [hS.N]; exact hd)
  have hVI : ∀ d, 1 ≤ d → d ≤ s0.g.N → (sortedOf (s.setG { s.p.g with flags := s.p.g.flags ||| 1 }).p inv).VI d =
      { s.p.VI (inv d) with parent := sortPar (searched s0 r order).g inv r.par d } := by
    intro d h1 h2
    have := hback d h1 h2
    have e1 : (sortedOf (s.setG { s.p.g with flags := s.p.g.flags ||| 1 }).p inv).VI d =
      { s.p.VI (inv d) with parent := relab (s.setG { s.p.g with flags := s.p.g.flags ||| 1 }).p.g (s.p.VI (inv d)).parent } :=
      if_pos ⟨h1, by show d ≤ s.p.g.N; rw [hS.N]; exact h2⟩
    rw [e1, hS.par _ this.1 this.2.1, hrel _ (hpl _ this.1 this.2.1)]
    rfl
  have hVI' : ∀ d, ¬ (1 ≤ d ∧ d ≤ s0.g.N) → (sortedOf (s.setG { s.p.g with flags := s.p.g.flags ||| 1 }).p inv).VI d = s.p.VI d := by
    intro d hd; exact if_neg (by show ¬ (1 ≤ d ∧ d ≤ s.p.g.N); rw [hS.N]; exact hd)
  have hGN : (sortedOf (s.setG { s.p.g with flags := s.p.g.flags ||| 1 }).p inv).g.N = s0.g.N := hS.N
  have hGA : (sortedOf (s.setG { s.p.g with flags := s.p.g.flags ||| 1 }).p inv).g.arcCap = s0.g.arcCap := hS.arcCap
  have hGr : (sortedOf (s.setG { s.p.g with flags := s.p.g.flags ||| 1 }).p inv).g.M = s0.g.M ∧
      (sortedOf (s.setG { s.p.g with flags := s.p.g.flags ||| 1 }).p inv).g.arcCap = s0.g.arcCap ∧
      (sortedOf (s.setG { s.p.g with flags := s.p.g.flags ||| 1 }).p inv).g.holes = s0.g.holes ∧
      (sortedOf (s.setG { s.p.g with flags := s.p.g.flags ||| 1 }).p inv).g.holesCap = s0.g.holesCap ∧
      (sortedOf (s.setG { s.p.g with flags := s.p.g.flags ||| 1 }).p inv).g.stackCap = s0.g.stackCap ∧
      (sortedOf (s.setG { s.p.g with flags := s.p.g.flags ||| 1 }).p inv).g.flags = (s0.g.flags ||| 1) ^^^ 2 := by
    refine ⟨hS.M, hGA, hS.holes, hS.holesCap, hS.stackCap, ?_⟩
    show (s.p.g.flags ||| 1) ^^^ 2 = _
    rw [hS.flags]
  generalize sortedOf (s.setG { s.p.g with flags := s.p.g.flags ||| 1 }).p inv = p at *
  -- the forest
  let par : Nat → Nat := fun d => if 1 ≤ d ∧ d ≤ s0.g.N then sortPar (searched s0 r order).g inv r.par d else 0
  have hpar : ∀ d, 1 ≤ d → d ≤ s0.g.N → par d = sortPar (searched s0 r order).g inv r.par d := fun d h1 h2 => if_pos ⟨h1, h2⟩
  have hparI : ∀ u, 1 ≤ u → u ≤ s0.g.N → par (r.idx u) = if r.par u = 0 then 0 else r.idx (r.par u) := by
    intro u h1 h2
    have := hout u h1 h2
    rw [hpar _ this.1 this.2.1]
    unfold sortPar
    rw [this.2.2]
    rfl
  have hprimS : ∀ d, 1 ≤ d → d ≤ s0.g.N → IsPrimary (sortedOf (searched s0 r order) inv) d := fun d h1 h2 => ⟨h1, h2⟩
  have hup : ∀ d, 1 ≤ d → d ≤ s0.g.N → par d ≠ 0 → par d < d := by
    intro d h1 h2 h0
    rw [hpar d h1 h2] at h0 ⊢
    exact (hFs.up d (hprimS d h1 h2) h0).2.1
  have hup' : ∀ c, 1 ≤ c → c ≤ s0.g.N → par c < c := by
    intro c h1 h2
    by_cases h0 : par c = 0
    · omega
    · exact hup c h1 h2 h0
  have hancTo : ∀ a b, b ≤ s0.g.N → AncEq (sortPar (searched s0 r order).g inv r.par) a b → 1 ≤ b → AncEq par a b := by
    intro a b hb hh h1
    induction hh with
    | refl => exact .refl _
    | @up b g1 g2 ih =>
      have q := (hFs.up b (hprimS b h1 hb) g1).1
      have e1 := hpar b h1 hb
      exact .up (by rw [e1]; exact g1) (by rw [e1]; exact ih q.2 q.1)
  have hancOf : ∀ a b, b ≤ s0.g.N → AncEq par a b → 1 ≤ b → AncEq (sortPar (searched s0 r order).g inv r.par) a b := by
    intro a b hb hh h1
    induction hh with
    | refl => exact .refl _
    | @up b g1 g2 ih =>
      have e1 := hpar b h1 hb
      have q := hup b h1 hb g1
      exact .up (by rw [← e1]; exact g1) (by rw [← e1]; exact ih (by omega) (by omega))
  -- tree arcs
  have hroot : ∀ c, 1 ≤ c → c ≤ s0.g.N → par c ≠ 0 → ∃ e, e ∈ rot (r.par (inv c)) ∧ r.par (inv c) ≠ 0 ∧ hdOf s0 e = inv c ∧ r.ty e = 14 ∧
      ∀ b, (s.p.g.V (c + s0.g.N)).link b = e := by
    intro c h1 h2 h0
    have hb := hback c h1 h2
    have h3 : r.par (inv c) ≠ 0 := by
      intro hz
      have := hparI (inv c) hb.1 hb.2.1
      rw [hb.2.2, if_pos hz] at this
      exact h0 this
    obtain ⟨e, a1, a2, a3, a4⟩ := hS.root (inv c) (hall _ hb.1 hb.2.1) h3
    rw [hb.2.2] at a4
    exact ⟨e, a1, h3, a2, a3, a4⟩
  let ta : Nat → Nat := fun c => (s.p.g.V (c + s0.g.N)).link false
  have hta : ∀ c, 1 ≤ c → c ≤ s0.g.N → par c ≠ 0 → ta c ∈ rot (r.par (inv c)) ∧ r.par (inv c) ≠ 0 ∧ hdOf s0 (ta c) = inv c ∧ r.ty (ta c) = 14 ∧
      ∀ b, (s.p.g.V (c + s0.g.N)).link b = ta c := by
    intro c h1 h2 h0
    obtain ⟨e, a1, a2, a3, a4, a5⟩ := hroot c h1 h2 h0
    have : ta c = e := a5 false
    rw [this]; exact ⟨a1, a2, a3, a4, a5⟩
  let B : Base :=
    { ap := ap, g0 := p.g, N := s0.g.N, par := par, A := fun e => ∃ u, e ∈ rot u, ta := ta, hN := hGN,
      tw := by rintro e ⟨u, he⟩; exact ⟨_, hst.twins u e he⟩
      rng := by
        rintro e ⟨u, he⟩
        have := hI.inv.links.arc u e he
        refine ⟨this.1, ?_⟩
        unfold eSize; rw [hGA]; exact this.2
      par_lt := hup'
      room := by rw [hGr.2.2.2.2.1]; exact hI.cap' }
  have hbk : ∀ w f, f ∈ rot w → (backOf s0 rot r order (twin f) ↔ r.idx w < r.idx (hdOf s0 f) ∧ r.par (hdOf s0 f) ≠ w) := by
    intro w f hfw
    have ht := hst.twins w f hfw
    have ho : hdOf s0 (twin f) = w := hst.owner w f hfw
    have hp1 := hst.hdPrim hfw
    have hp2 := hst.prim w f hfw
    unfold backOf
    rw [ho]
    constructor
    · rintro ⟨u, u1, u2, u3, u4, u5⟩
      have := hst.disj u2 ht
      subst this
      exact ⟨u4, u5⟩
    · rintro ⟨u4, u5⟩
      exact ⟨_, hall _ hp1.1 hp1.2, ht, hall _ hp2.1 hp2.2, u4, u5⟩
  let fw' : Nat → List Nat := fun d => if 1 ≤ d ∧ d ≤ s0.g.N then fw (inv d) else []
  let kid' : Nat → List Nat := fun d => if 1 ≤ d ∧ d ≤ s0.g.N then kid (inv d) else []
  have hfw' : ∀ d f, f ∈ fw' d ↔ (1 ≤ d ∧ d ≤ s0.g.N) ∧ f ∈ rot (inv d) ∧ d < r.idx (hdOf s0 f) ∧ r.par (hdOf s0 f) ≠ inv d := by
    intro d f
    show f ∈ (if 1 ≤ d ∧ d ≤ s0.g.N then fw (inv d) else []) ↔ _
    by_cases hd : 1 ≤ d ∧ d ≤ s0.g.N
    · rw [if_pos hd, hS.inFw]
      have hb := hback d hd.1 hd.2
      constructor
      · rintro ⟨a1, a2⟩
        rw [hbk _ _ a1, hb.2.2] at a2
        exact ⟨hd, a1, a2⟩
      · rintro ⟨_, a1, a2⟩
        refine ⟨a1, ?_⟩
        rw [hbk _ _ a1, hb.2.2]; exact a2
    · rw [if_neg hd]; simp [hd]
  have hparTo : ∀ w, 1 ≤ w → w ≤ s0.g.N → ∀ d, 1 ≤ d → d ≤ s0.g.N → (par (r.idx w) = d ↔ r.par w = inv d) := by
    intro w h1 h2 d h3 h4
    rw [hparI w h1 h2]
    have hb := hback d h3 h4
    by_cases hz : r.par w = 0
    · rw [if_pos hz, hz]; constructor <;> intro hh <;> omega
    · rw [if_neg hz]
      have hq := hpl w h1 h2
      have ho := hout (r.par w) (by omega) hq
      constructor
      · intro hh; rw [← hh, ho.2.2]
      · intro hh; rw [hh, hb.2.2]
  have harcS : ∀ d f, 1 ≤ d → d ≤ s0.g.N → f ∈ rot (inv d) → ArcTo (sortedOf (searched s0 r order) inv).g d f (r.idx (hdOf s0 f)) := by
    intro d f h1 h2 hfr
    rw [arcTo_iff hIsort.inv]
    have hp := hst.hdPrim hfr
    refine ⟨?_, ?_⟩
    · show f ∈ (if 1 ≤ d ∧ d ≤ _ then rot (inv d) else []); rw [if_pos ⟨h1, h2⟩]; exact hfr
    · show relab (searched s0 r order).g (hdOf s0 f) = _; exact hrel' _ hp.1
  have hanc : ∀ d, ∀ f ∈ fw' d, Anc par d (r.idx (hdOf s0 f)) := by
    intro d f hfd
    obtain ⟨a1, a2, a3, a4⟩ := (hfw' d f).1 hfd
    have hp := hst.hdPrim a2
    have ho := hout _ hp.1 hp.2
    rcases hFs.related _ _ _ (harcS d f a1.1 a1.2 a2) with q | q
    · rcases (hancTo _ _ ho.2.1 q ho.1).cases with e | e
      · omega
      · exact e
    · have := ancEq_le (N := s0.g.N) hup' (hancTo _ _ a1.2 q a1.1) a1.1 a1.2
      omega
  have hchild : ∀ c, B.Child c → ta c ∈ rot (r.par (inv c)) ∧ r.par (inv c) ≠ 0 ∧ hdOf s0 (ta c) = inv c ∧ r.ty (ta c) = 14 ∧
      ∀ b, (s.p.g.V (c + s0.g.N)).link b = ta c := fun c hc => hta c hc.1 hc.2.1 hc.2.2
  have htaIff : ∀ u e, e ∈ rot u → r.par (hdOf s0 e) = u → B.Child (r.idx (hdOf s0 e)) ∧ e = ta (r.idx (hdOf s0 e)) := by
    intro u e he hpu
    have hp := hst.hdPrim he
    have hu := hst.prim u e he
    have ho := hout _ hp.1 hp.2
    have hc : B.Child (r.idx (hdOf s0 e)) := by
      refine ⟨ho.1, ho.2.1, ?_⟩
      show par _ ≠ 0
      rw [hparI _ hp.1 hp.2, if_neg (by omega), hpu]
      have := hout u hu.1 hu.2; omega
    refine ⟨hc, ?_⟩
    obtain ⟨b1, b2, b3, b4, b5⟩ := hchild _ hc
    rw [ho.2.2, hpu] at b1
    rw [ho.2.2] at b3
    exact (hsim u e he).2 _ b1 b3.symm
  refine ⟨inv, B, fun f => r.idx (hdOf s0 f), fun d => (s.p.VI (inv d)).leastAncestor, fw', kid', ⟨hn.out, hn.back⟩, hF, hIs, fun e => Iff.rfl, rfl, hpar, ?_, hGr, ?_, rfl, ?_⟩
  · intro u e he
    refine ⟨hNbr u e he, ?_⟩
    obtain ⟨t, t1, t2, _⟩ := hS.ty u e he
    refine ⟨t, by rw [hFlag]; exact t1, ?_⟩
    rcases t2 with rfl | rfl | rfl | rfl | rfl <;> rfl
  · intro d h1 h2; rw [hV d h1 h2]
  constructor
  · rfl
  · intro c hc
    obtain ⟨b1, b2, b3, b4, b5⟩ := hchild c hc
    have hb := hback c hc.1 hc.2.1
    refine ⟨⟨_, b1⟩, ?_, ?_, ?_⟩
    · show (p.g.E (ta c)).nbr = c
      rw [hNbr _ _ b1, b3, hb.2.2]
    · show (p.g.E (twin (ta c))).nbr = par c
      rw [hNbr _ _ (hst.twins _ _ b1)]
      have : hdOf s0 (twin (ta c)) = r.par (inv c) := hst.owner _ _ b1
      rw [this]
      have := hparI (inv c) hb.1 hb.2.1
      rw [hb.2.2, if_neg b2] at this
      exact this.symm
    · intro b
      show (p.g.V (c + s0.g.N)).link b = ta c
      have := hc.1
      rw [hV' _ (by omega)]; exact b5 b
  · intro v h1 h2 h3 b
    have h1 : s0.g.N < v := h1
    have h2 : v ≤ s0.g.N + s0.g.N := h2
    show (p.g.V v).link b = 0
    rw [hV' _ (by omega)]
    refine hS.noRoot v h1 h2 ?_ b
    intro u hu hpu hh
    have hr := D.range u hu
    have ho := hout u hr.1 hr.2
    refine h3 ⟨?_, ?_, ?_⟩
    · show 1 ≤ v - s0.g.N; omega
    · show v - s0.g.N ≤ s0.g.N; omega
    · show par (v - s0.g.N) ≠ 0
      have : v - s0.g.N = r.idx u := by omega
      rw [this, hparI u hr.1 hr.2, if_neg hpu]
      have := hout (r.par u) (by omega) (hpl u hr.1 hr.2)
      omega
  · intro b
    show (p.g.V 0).link b = 0
    rw [hV' 0 (by omega)]
    have h1 := hS.links.vlink 0 b (by show 0 < 1 + s.p.g.N + s.p.g.N; omega)
    have h2 : (if 0 ≤ s.p.g.N then s.p.g.V 0 else {}).link b = endIn b (cur 0) := h1
    rw [if_pos (by omega)] at h2
    rw [h2]
    have : cur 0 = [] := by
      rw [List.eq_nil_iff_forall_not_mem]
      intro e he
      have := hst.prim 0 e ((hS.inCur 0 e).1 he).1
      omega
    rw [this]; cases b <;> rfl
  · rintro e ⟨u, he⟩
    show (p.g.E e).flags &&& 14 = 14 ↔ _
    rw [hFlag]
    obtain ⟨t, t1, t2, t3, _⟩ := hS.ty u e he
    have h14 : (s.p.g.E e).flags &&& 14 = t := by
      rw [t1]; exact or_type (hStart.types u e he) t2
    rw [h14, t3]
    constructor
    · intro h14
      have := D.child u e he h14
      obtain ⟨c1, c2⟩ := htaIff u e he this
      exact ⟨_, c1, c2⟩
    · rintro ⟨c, c1, rfl⟩
      exact (hchild c c1).2.2.2.1
  · rintro e ⟨u, he⟩
    show (p.g.E e).flags &&& 14 = 6 ↔ _
    rw [hFlag]
    obtain ⟨t, t1, t2, _, t4, _⟩ := hS.ty u e he
    have h6 : (s.p.g.E e).flags &&& 14 = t := by
      rw [t1]; exact or_type (hStart.types u e he) t2
    have hu := hst.prim u e he
    have hp := hst.hdPrim he
    have ht := hst.twins u e he
    have how : hdOf s0 (twin e) = u := hst.owner u e he
    have hty := (tree_types hst hsim D ht (hall _ hp.1 hp.2) (by rw [how]; exact hall u hu.1 hu.2)).2
    rw [how, twin_twin] at hty
    rw [h6, t4, hty]
    constructor
    · intro hpu
      have := htaIff _ _ ht (by rw [how]; exact hpu)
      exact ⟨_, this.1, (twin_twin e).symm.trans (congrArg twin this.2)⟩
    · rintro ⟨c, c1, rfl⟩
      obtain ⟨b1, _, b3, _⟩ := hchild c c1
      rw [twin_twin] at how ht
      have := hst.disj ht b1
      have hc : twin (B.ta c) ∈ rot u := he
      have h2 : inv c = u := b3.symm.trans how
      rw [← h2]; exact this.symm
  · intro c hc
    obtain ⟨b1, _⟩ := hchild c hc
    show (p.g.E (ta c)).flags.testBit 4 = false
    rw [hFlag]
    obtain ⟨t, t1, t2, _⟩ := hS.ty _ _ b1
    rw [t1, Nat.testBit_or]
    have q1 : (s0.g.E (ta c)).flags.testBit 4 = false := by
      have := congrArg (fun n => n.testBit 4) (hclean _ _ b1)
      simp only [Nat.testBit_and] at this
      have h30 : Nat.testBit 30 4 = true := by decide
      rw [h30] at this
      simpa using this
    rw [q1]
    rcases t2 with rfl | rfl | rfl | rfl | rfl <;> decide
  · intro e he
    exact hDead e fun u hu => he ⟨u, hu⟩
  · intro x h1 h2
    show (p.VI x).parent = par x
    rw [hVI x h1 h2, hpar x h1 h2]
  · refine hS.fwl.rename hback ?_ ?_ ?_
    · show p.g.eSize = s.p.g.eSize; unfold eSize; rw [hGA, hS.arcCap]
    · intro z h1 h2; show (p.VI z).fwdArcList = _; rw [hVI z h1 h2]; rfl
    · intro y; exact ⟨hLink y false, hLink y true⟩
  · intro d f hfd
    obtain ⟨a1, a2, a3, a4⟩ := (hfw' d f).1 hfd
    have hp := hst.hdPrim a2
    have ho := hout _ hp.1 hp.2
    exact ⟨⟨_, a2⟩, hNbr _ _ a2, a1, ho.1, ho.2.1⟩
  · intro d f hfd
    obtain ⟨a1, a2, a3, a4⟩ := (hfw' d f).1 hfd
    show (p.g.E (twin f)).nbr = d
    rw [hNbr _ _ (hst.twins _ _ a2)]
    have : hdOf s0 (twin f) = inv d := hst.owner _ _ a2
    rw [this]; exact (hback d a1.1 a1.2).2.2
  · intro u w e he he'
    obtain ⟨a1, a2, a3, a4⟩ := (hfw' u e).1 he
    obtain ⟨c1, c2, c3, c4⟩ := (hfw' w _).1 he'
    have o1 : hdOf s0 (twin e) = inv u := hst.owner _ _ a2
    have := hst.disj c2 (hst.twins _ _ a2)
    rw [o1, (hback u a1.1 a1.2).2.2] at c3
    rw [← this, (hback w c1.1 c1.2).2.2] at a3
    omega
  · intro d f hfd c hc
    obtain ⟨a1, a2, a3, a4⟩ := (hfw' d f).1 hfd
    obtain ⟨b1, b2, b3, b4, b5⟩ := hchild c hc
    constructor
    · intro hh
      have hh : f = ta c := hh
      subst hh
      rw [b3] at a4
      exact a4 (hst.disj b1 a2)
    · intro hh
      have hh : f = twin (ta c) := hh
      subst hh
      have o1 : hdOf s0 (twin (ta c)) = r.par (inv c) := hst.owner _ _ b1
      have o2 := hst.disj (hst.twins _ _ b1) a2
      rw [b3] at o2
      have hb := hback c hc.1 hc.2.1
      have hd : d = c := by have := (hback d a1.1 a1.2).2.2; rw [← o2, hb.2.2] at this; exact this.symm
      rw [o1] at a3
      have := hup c hc.1 hc.2.1 hc.2.2
      have e1 := hparI (inv c) hb.1 hb.2.1
      rw [hb.2.2, if_neg b2] at e1
      omega
  · rintro e ⟨u, he⟩
    have hu := hst.prim u e he
    have hp := hst.hdPrim he
    have hne := (hsim u e he).1
    have ht := hst.twins u e he
    have ho : hdOf s0 (twin e) = u := hst.owner u e he
    have hou := hout u hu.1 hu.2
    have how := hout _ hp.1 hp.2
    have hi : r.idx (hdOf s0 e) ≠ r.idx u := by
      intro hh; apply hne; rw [← how.2.2, hh, hou.2.2]
    by_cases h1 : r.par (hdOf s0 e) = u
    · obtain ⟨c1, c2⟩ := htaIff u e he h1
      exact .inl ⟨_, c1, .inl c2⟩
    · by_cases h2 : r.par u = hdOf s0 e
      · obtain ⟨c1, c2⟩ := htaIff _ _ ht (by rw [ho]; exact h2)
        rw [ho] at c1 c2
        exact .inl ⟨_, c1, .inr (by show e = twin (ta _); rw [← c2, twin_twin])⟩
      · right
        rcases Nat.lt_or_gt_of_ne hi with hh | hh
        · refine ⟨r.idx (hdOf s0 e), .inr ((hfw' _ _).2 ⟨⟨how.1, how.2.1⟩, ?_, ?_, ?_⟩)⟩
          · rw [how.2.2]; exact ht
          · rw [ho]; exact hh
          · rw [ho, how.2.2]; exact h2
        · refine ⟨r.idx u, .inl ((hfw' _ _).2 ⟨⟨hou.1, hou.2.1⟩, ?_, hh, ?_⟩)⟩
          · rw [hou.2.2]; exact he
          · rw [hou.2.2]; exact h1
  · exact hanc
  · intro d f hfd
    obtain ⟨a1, a2, a3, a4⟩ := (hfw' d f).1 hfd
    have hp := hst.hdPrim a2
    intro hh
    exact a4 ((hparTo _ hp.1 hp.2 d a1.1 a1.2).1 hh)
  · intro u
    show (if 1 ≤ u ∧ u ≤ s0.g.N then fw (inv u) else []).Pairwise _
    split
    · exact hS.fws _
    · simp
  · refine hS.kl.rename hback rfl ?_ (fun _ => ⟨rfl, rfl⟩)
    intro z h1 h2; show (p.VI z).sortedDFSChildList = _; rw [hVI z h1 h2]
  · intro x c
    show c ∈ (if 1 ≤ x ∧ x ≤ s0.g.N then kid (inv x) else []) ↔ _
    constructor
    · intro hc
      split at hc
      · next hx =>
        obtain ⟨u, u1, u2, u3, u4⟩ := (hS.inKid _ _).1 hc
        have hr := D.range u u1
        have ho := hout u hr.1 hr.2
        have e1 := (hparTo u hr.1 hr.2 x hx.1 hx.2).2 u2
        rw [u4] at ho e1
        exact ⟨⟨ho.1, ho.2.1, by show par c ≠ 0; omega⟩, e1⟩
      · simp at hc
    · rintro ⟨c1, c2⟩
      have c2 : par c = x := c2
      have hb := hback c c1.1 c1.2.1
      have hlt := hup' c c1.1 c1.2.1
      have hx : 1 ≤ x ∧ x ≤ s0.g.N := by
        have h1 : par c ≠ 0 := c1.2.2
        have h2 : c ≤ s0.g.N := c1.2.1
        omega
      rw [if_pos hx, hS.inKid]
      have hbx := hback x hx.1 hx.2
      refine ⟨inv c, hall _ hb.1 hb.2.1, ?_, by omega, hb.2.2⟩
      exact (hparTo (inv c) hb.1 hb.2.1 x hx.1 hx.2).1 (by rw [hb.2.2]; exact c2)
  · intro x
    show (if 1 ≤ x ∧ x ≤ s0.g.N then kid (inv x) else []).Pairwise _
    split
    · exact hS.kids _
    · simp
  · intro x h1 h2
    show (p.VI x).leastAncestor = _
    rw [hVI x h1 h2]
  · intro d f hfd
    obtain ⟨a1, a2, a3, a4⟩ := (hfw' d f).1 hfd
    have hp := hst.hdPrim a2
    have hb := hback d a1.1 a1.2
    show (s.p.VI (inv (r.idx (hdOf s0 f)))).leastAncestor ≤ d
    rw [(hout _ hp.1 hp.2).2.2]
    have hbb := (hbk _ _ a2).2 ⟨by rw [hb.2.2]; exact a3, a4⟩
    have := hS.la _ _ hbb (hst.twins _ _ a2)
    have o1 : hdOf s0 (twin f) = inv d := hst.owner _ _ a2
    rw [o1, hb.2.2] at this
    exact this
  · intro x h1 h2
    have hb := hback x h1 h2
    show (s.p.VI (inv x)).leastAncestor = x ∨ ∃ f ∈ fw' (s.p.VI (inv x)).leastAncestor, r.idx (hdOf s0 f) = x
    rcases hS.la' (inv x) (hall _ hb.1 hb.2.1) with k | ⟨e, k1, k2, k3⟩
    · left; rw [k, hb.2.2]
    · right
      have ht := hst.twins _ _ k2
      have o1 : hdOf s0 (twin e) = inv x := hst.owner _ _ k2
      have hp := hst.hdPrim k2
      have ho := hout _ hp.1 hp.2
      refine ⟨twin e, ?_, by rw [o1, hb.2.2]⟩
      have q := (hbk _ _ ht).1 (by rw [twin_twin]; exact k1)
      rw [k3, hfw']
      refine ⟨?_, ?_, q.1, ?_⟩
      · exact ⟨ho.1, ho.2.1⟩
      · rw [ho.2.2]; exact ht
      · rw [ho.2.2]; exact q.2
  · intro u w x h1 h2 hux huw hwx
    have h2 : x ≤ s0.g.N := h2
    have := hFs.consecutive u w x (hprimS u h1 (by omega)) (hprimS w (by omega) (by omega)) (hprimS x (by omega) h2)
      (hancOf _ _ h2 hux (by omega)) huw hwx
    exact hancTo _ _ (by omega) this (by omega)
  · intro x
    show (p.VI x).pertinentEdge = 0 ∧ (p.VI x).pertinentRoots = 0
    by_cases hx : 1 ≤ x ∧ x ≤ s0.g.N
    · rw [hVI x hx.1 hx.2]; exact hS.pe _
    · rw [hVI' x hx]; exact hS.pe _
  · exact hS.roots

end Verif.Embed
