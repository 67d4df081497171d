import Verif.Embed.Rep

/-
One round of _MergeBicomps follows the ideal merge.
-/
namespace Verif.Embed
open Verif Verif.Graph Verif.EGraph Equiv Equiv.Perm Verif.Map Function
open Verif.Props (AncEq)

variable {B : Base} {G : Gh B.D} {s : EGraph}

/-- A ring whose link from the root to the first vertex is not up to date. -/
structure Open (s : EGraph) (R : Nat) (Y : List Nat) (o : Nat → Bool) : Prop where
  chain : List.IsChain (lnk s o) (Y ++ [R])
  ne : Y ≠ []
  nodup : Y.Nodup
  root : R ∉ Y
  fit : ∀ T x, Y = T ++ [x] → s.ext x (!o x) = R → o x = o R

theorem Ring.open {R : Nat} {Y : List Nat} {o : Nat → Bool} (h : Ring s R Y o) : Open s R Y o := by
  refine ⟨h.chain.tail, h.ne, h.nodup, h.root, ?_⟩
  intro T x hY hx
  rcases List.eq_nil_or_concat T with rfl | ⟨T', y, rfl⟩
  · exact h.single x hY
  · exfalso
    rw [List.concat_eq_append] at hY
    subst hY
    have e : T' ++ [y] ++ [x] = T' ++ [y, x] := by simp
    rw [e] at h
    exact h.last_ne hx

theorem Open.last {R x : Nat} {T : List Nat} {o : Nat → Bool} (h : Open s R (T ++ [x]) o) : lnk s o x R := by
  have := h.chain
  have e : T ++ [x] ++ [R] = T ++ x :: R :: [] := by simp
  rw [e, List.isChain_append] at this
  exact (List.isChain_cons_cons.1 this.2.1).1

theorem withExt_ext (s : EGraph) (v : Nat) (b : Bool) (w x : Nat) (c : Bool) :
    (withExt s v b w).ext x c = if x = v ∧ c = b then w else s.ext x c := rfl

theorem linkExt_spec {R x Z : Nat} {T : List Nat} {o : Nat → Bool} (op : Open s R (T ++ [x]) o) (zp : Bool) (hZx : Z ≠ x)
    (hR : R < s.p.g.vSize) (hx : x < s.p.g.vSize) (hZ : Z < s.p.g.vSize) :
    s.linkExt R (o R) Z zp = some (withExt (withExt s Z zp x) x (o x) Z) := by
  have hl := op.last
  unfold EGraph.linkExt
  rw [getExt_eq hR, hl.2]
  simp only [Option.bind_eq_bind, Option.bind_some]
  rw [setExt_eq hZ]
  simp only [Option.bind_some]
  have hx' : x < (withExt s Z zp x).p.g.vSize := hx
  rw [getExt_eq hx', getExt_eq hx']
  simp only [Option.bind_some, withExt_ext]
  have hxZ : ∀ b, ¬ (x = Z ∧ b = zp) := fun b hh => hZx hh.1.symm
  rw [if_neg (hxZ _), if_neg (hxZ _), setExt_eq hx', setExt_eq hx']
  have h1 := hl.1
  have h2 := op.fit T x rfl
  split
  · next hab =>
    have : s.ext x (!o x) = R := by
      cases ho : o x <;> rw [ho] at h1
      · rw [← h1]; exact hab.symm
      · rw [← h1]; exact hab
    rw [h2 this]
  · next hab =>
    cases ho : o x
    · rw [ho] at h1; rw [if_pos h1]
    · rw [ho] at h1
      rw [if_neg]
      intro hh; exact hab (hh.trans h1.symm)

theorem xor16 (f : Nat) : (f ^^^ 16) &&& 14 = f &&& 14 := by
  rw [Nat.and_xor_distrib_right]; simp

theorem raw_treeArc (r : Rep B s G) {c : Nat} (hc : G.Live B.N c) (hch : B.Child c) :
    ∀ e ∈ raw G (c + B.N), ((s.p.g.E e).flags &&& 14 = 14 ↔ e = B.ta c) := by
  intro e he
  obtain ⟨hA, _⟩ := mem_raw.1 he
  rw [r.typ e hA]
  constructor
  · rintro ⟨k, hk, rfl⟩
    have h1 := r.hold k hk
    have h2 := r.links.disj _ _ _ h1 he
    by_cases hl : G.L (k + B.N) = []
    · rw [holder_dead hl] at h2
      have := B.par_lt k hk.1 hk.2.1
      have := hk.2.1
      have := hc.1
      omega
    · rw [holder_live ⟨hk.1, hl⟩] at h2
      have : k = c := by omega
      rw [this]
  · rintro rfl; exact ⟨c, hch, rfl⟩

/-- Flipping the component of a root reverses its list and toggles the sign of the tree edge. -/
theorem flipRoot_spec (r : Rep B s G) {c : Nat} (hc : G.Live B.N c) (hch : B.Child c) :
    ∃ g2 x2, s.flipRoot (c + B.N) = some { s.setG g2 with ext := x2 } ∧
      Links g2 (update (raw G) (c + B.N) (raw G (c + B.N)).reverse) ∧ Fix s.p.g g2 ∧ g2.stack = s.p.g.stack ∧
      (∀ e, (g2.E e).flags = if e = B.ta c then (s.p.g.E e).flags ^^^ 16 else (s.p.g.E e).flags) ∧
      (∀ e, (g2.E e).nbr = (s.p.g.E e).nbr) ∧ (∀ e, e ∉ raw G (c + B.N) → g2.E e = s.p.g.E e) ∧
      (∀ y b, y ≠ c + B.N → x2 y b = s.ext y b) := by
  set R := c + B.N with hRd
  have hc1 := hc.1
  have hRv : 1 ≤ R ∧ R < s.p.g.vSize := by have := hch.2.1; rw [r.vSize]; omega
  have hta : B.ta c ∈ raw G R := by have := r.hold c hch; rwa [holder_live hc] at this
  have htyp := raw_treeArc r hc hch
  -- reversed
  obtain ⟨g1, x1, h1, hL1, hS1, hE1, hX1⟩ : ∃ g1 x1, (do
        let a ← s.p.g.getArc R false
        let b ← s.p.g.getArc R true
        if a ≠ b then s.invertVertex R else some s) = some { s.setG g1 with ext := x1 } ∧
      Links g1 (update (raw G) R (raw G R).reverse) ∧ SameBut s.p.g g1 ∧ (∀ e, e ∉ raw G R → g1.E e = s.p.g.E e) ∧
      (∀ y b, y ≠ R → x1 y b = s.ext y b) := by
    rw [getArc_eq hRv.2, getArc_eq hRv.2]
    simp only [Option.bind_eq_bind, Option.bind_some]
    by_cases hab : (s.p.g.V R).link false = (s.p.g.V R).link true
    · rw [if_neg (by simpa using hab)]
      refine ⟨s.p.g, s.ext, rfl, ?_, SameBut.refl _, fun _ _ => rfl, fun _ _ _ => rfl⟩
      -- one arc only
      have e1 : (raw G R).reverse = raw G R := by
        rw [r.links.vlink R false hRv.2, r.links.vlink R true hRv.2] at hab
        have hnd := r.links.nodup R
        revert hab hnd
        cases hr : raw G R with
        | nil => simp
        | cons a t =>
          intro hab hnd
          rcases List.eq_nil_or_concat t with rfl | ⟨t', z, rfl⟩
          · rfl
          · exfalso
            rw [List.concat_eq_append] at hab hnd
            have : a = z := by simpa [endIn] using hab
            subst this
            simp at hnd
      rw [e1, update_eq_self]
      exact r.links
    · rw [if_pos hab]
      obtain ⟨g', e1, e2, e3, e4⟩ := invertVertex_spec r.links hRv
      refine ⟨g', _, e1, e2, e3, e4, ?_⟩
      intro y b hy; exact if_neg hy
  have hRv1 : R < g1.vSize := by rw [hS1.vSize]; exact hRv.2
  have hfl : ∀ e, (g1.E e).flags = (s.p.g.E e).flags := hS1.eflags
  have hlink : (g1.V R).link false = (raw G R).reverse.headD 0 := by
    rw [hL1.vlink R false hRv1, update_self]; rfl
  have hrot : update (raw G) R (raw G R).reverse R = [] ++ (raw G R).reverse := by rw [update_self]; rfl
  have hlen : (raw G R).reverse.length ≤ g1.eSize := by
    have := hL1.length_le R
    rwa [update_self] at this
  have hflip := flipChild_spec hL1 (W := R) (t := B.ta c) (raw G R).reverse [] g1.eSize hrot hlen (by simpa using hta)
    (fun e he => by rw [hfl]; exact htyp e (by simpa using he))
  refine ⟨toggled g1 (B.ta c), x1, ?_, ?_, ?_, ?_, ?_, ?_, ?_, hX1⟩
  · unfold EGraph.flipRoot
    have : (do
        let a ← s.p.g.getArc R false
        let b ← s.p.g.getArc R true
        let s ← if a ≠ b then s.invertVertex R else some s
        let a ← s.p.g.getArc R false
        let g ← flipChild s.p.g.eSize s.p.g a
        return s.setG g) = (do
        let s ← (do
          let a ← s.p.g.getArc R false
          let b ← s.p.g.getArc R true
          if a ≠ b then s.invertVertex R else some s)
        let a ← s.p.g.getArc R false
        let g ← flipChild s.p.g.eSize s.p.g a
        return s.setG g) := by
      rw [getArc_eq hRv.2, getArc_eq hRv.2]
      simp only [Option.bind_eq_bind, Option.bind_some]
      split <;> rfl
    rw [this, h1]
    simp only [Option.bind_eq_bind, Option.bind_some]
    have hv : R < ({ s.setG g1 with ext := x1 } : EGraph).p.g.vSize := hRv1
    rw [getArc_eq hv]
    simp only [Option.bind_some]
    have e2 : (({ s.setG g1 with ext := x1 } : EGraph).p.g.V R).link false = (raw G R).reverse.headD 0 := hlink
    rw [e2]
    have e3 : flipChild ({ s.setG g1 with ext := x1 } : EGraph).p.g.eSize ({ s.setG g1 with ext := x1 } : EGraph).p.g
      ((raw G R).reverse.headD 0) = some (toggled g1 (B.ta c)) := hflip
    rw [e3]
    rfl
  · refine hL1.congr rfl rfl ?_ (fun _ _ => rfl)
    intro e b
    unfold toggled
    rw [updE_E]
    split <;> rfl
  · refine (fix_of_same hS1).trans ?_
    constructor <;> intros <;> rfl
  · exact hS1.stack
  · intro e
    unfold toggled
    rw [updE_E]
    split
    · next he => simp [hfl]
    · exact hfl e
  · intro e
    unfold toggled
    rw [updE_E]
    split
    · exact hS1.nbr e
    · exact hS1.nbr e
  · intro e he
    unfold toggled
    rw [updE_E, if_neg (by rintro rfl; exact he hta)]
    exact hE1 e he

/-- Heads of the lists of pertinent roots. -/
def pr (s : EGraph) (z : Nat) : Nat := (s.p.VI z).pertinentRoots
/-- Future pertinent children. -/
def fpc (s : EGraph) (z : Nat) : Nat := (s.p.VI z).futurePertinentChild

/-- Vertex information other than pertinent roots and future pertinent children is the same. -/
structure VKeep (p p' : PGraph) : Prop where
  parent : ∀ x, (p'.VI x).parent = (p.VI x).parent
  la : ∀ x, (p'.VI x).leastAncestor = (p.VI x).leastAncestor
  low : ∀ x, (p'.VI x).lowpoint = (p.VI x).lowpoint
  vis : ∀ x, (p'.VI x).visitedInfo = (p.VI x).visitedInfo
  pe : ∀ x, (p'.VI x).pertinentEdge = (p.VI x).pertinentEdge
  kids : ∀ x, (p'.VI x).sortedDFSChildList = (p.VI x).sortedDFSChildList
  fwd : ∀ x, (p'.VI x).fwdArcList = (p.VI x).fwdArcList

theorem VKeep.refl (p : PGraph) : VKeep p p := by constructor <;> intros <;> rfl
theorem VKeep.of_eq {p p' : PGraph} (h : p'.VI = p.VI) : VKeep p p' := by constructor <;> intro x <;> rw [h]
theorem VKeep.trans {a b c : PGraph} (h : VKeep a b) (h' : VKeep b c) : VKeep a c := by
  constructor <;> intro x
  · rw [h'.parent, h.parent]
  · rw [h'.la, h.la]
  · rw [h'.low, h.low]
  · rw [h'.vis, h.vis]
  · rw [h'.pe, h.pe]
  · rw [h'.kids, h.kids]
  · rw [h'.fwd, h.fwd]

theorem deleteRoot_spec {PR : Nat → List Nat} {n : Nat} (hN : s.p.g.N = n) (hpr : Lists s.roots (pr s) n PR) {Z c : Nat}
    (hZ : 1 ≤ Z ∧ Z ≤ n) (hcP : c ∈ PR Z) : ∃ s', s.deleteRoot Z (c + n) = some s' ∧ s'.p.g = s.p.g ∧ s'.ext = s.ext ∧
      s'.kids = s.kids ∧ VKeep s.p s'.p ∧ Lists s'.roots (pr s') n (update PR Z ((PR Z).erase c)) ∧
      (∀ x, fpc s' x = fpc s x) ∧ s'.roots.N = s.roots.N := by
  obtain ⟨A, C, hAC⟩ := List.append_of_mem hcP
  obtain ⟨rs, hd', e1, e2, e3⟩ := hpr.delete hZ.1 hZ.2 hAC
  have hZv : Z < 1 + s.p.g.N := by omega
  have her : (PR Z).erase c = A ++ C := by
    have hnd := hpr.nodup Z
    rw [hAC] at hnd ⊢
    have hcA : c ∉ A := fun hh => by
      rw [List.nodup_append] at hnd
      exact hnd.2.2 c hh c (by simp) rfl
    rw [List.erase_append_right _ hcA]; simp
  refine ⟨{ s with p := { s.p with VI := update s.p.VI Z { s.p.VI Z with pertinentRoots := hd' } }, roots := rs }, ?_, rfl, rfl, rfl,
    ?_, ?_, ?_, e2⟩
  · unfold EGraph.deleteRoot
    have h1 : s.p.rdVI Z = some (s.p.VI Z) := if_pos hZv
    have h2 : s.childOf (c + n) = some c := by unfold EGraph.childOf; rw [hN, if_pos (by omega)]; simp
    rw [h1, h2]
    simp only [Option.bind_eq_bind, Option.bind_some]
    have h3 : LC.delete s.roots (s.p.VI Z).pertinentRoots c = some (rs, hd') := e1
    rw [h3]
    simp only [Option.bind_some]
    have h4 : s.p.wrVI Z { s.p.VI Z with pertinentRoots := hd' } =
      some { s.p with VI := update s.p.VI Z { s.p.VI Z with pertinentRoots := hd' } } := if_pos hZv
    rw [h4]; rfl
  · constructor <;> intro x <;> (by_cases hx : x = Z; · subst hx; simp) <;> simp [update_of_ne hx]
  · rw [her]
    refine e3.congr rfl ?_ (fun _ _ _ => ⟨rfl, rfl⟩)
    intro z _ _
    unfold pr
    by_cases hz : z = Z
    · subst hz; simp
    · simp [update_of_ne hz]
  · intro x
    unfold fpc
    by_cases hz : x = Z
    · subst hz; simp
    · simp [update_of_ne hz]

/-- What may happen to the future pertinent children when child `c` of `Z` is merged. -/
def FpcStep (s s' : EGraph) (Z c : Nat) : Prop :=
  (∀ x, fpc s' x = fpc s x) ∨
    ((∀ x, x ≠ Z → fpc s' x = fpc s x) ∧ fpc s Z = c ∧ LC.getNext s.kids (s.p.VI Z).sortedDFSChildList c = some (fpc s' Z))

theorem passChild_spec {n Z c : Nat} {s' : EGraph} (hN : s.p.g.N = n) (he : s.passChild Z (c + n) = some s') :
    s'.p.g = s.p.g ∧ s'.ext = s.ext ∧ s'.kids = s.kids ∧ s'.roots = s.roots ∧ VKeep s.p s'.p ∧ (∀ x, pr s' x = pr s x) ∧
      FpcStep s s' Z c := by
  unfold EGraph.passChild at he
  have h2 : s.childOf (c + n) = some c := by unfold EGraph.childOf; rw [hN, if_pos (by omega)]; simp
  rw [h2] at he
  simp only [Option.bind_eq_bind] at he
  obtain ⟨r, hr, he⟩ := Option.bind_eq_some_iff.1 he
  have hZv : Z < 1 + s.p.g.N := by
    unfold PGraph.rdVI at hr
    by_contra hh; rw [if_neg hh] at hr; simp at hr
  have hr' : r = s.p.VI Z := by
    unfold PGraph.rdVI at hr; rw [if_pos hZv] at hr; exact (Option.some.inj hr).symm
  subst hr'
  simp only [Option.bind_some] at he
  split at he
  · next hc =>
    obtain ⟨n', hn', he⟩ := Option.bind_eq_some_iff.1 he
    have h4 : s.p.wrVI Z { s.p.VI Z with futurePertinentChild := n' } =
      some { s.p with VI := update s.p.VI Z { s.p.VI Z with futurePertinentChild := n' } } := if_pos hZv
    rw [h4] at he
    simp only [Option.bind_some, pure, Option.some.injEq] at he
    subst he
    refine ⟨rfl, rfl, rfl, rfl, ?_, ?_, .inr ⟨?_, hc.symm, ?_⟩⟩
    · constructor <;> intro x <;> (by_cases hx : x = Z; · subst hx; simp [EGraph.setP]) <;>
        simp [EGraph.setP, update_of_ne hx]
    · intro x
      unfold pr
      by_cases hz : x = Z
      · subst hz; simp [EGraph.setP]
      · simp [EGraph.setP, update_of_ne hz]
    · intro x hx
      unfold fpc
      simp [EGraph.setP, update_of_ne hx]
    · unfold EGraph.nextChild at hn'
      have h1 : s.p.rdVI Z = some (s.p.VI Z) := if_pos hZv
      rw [h1, ← hc] at hn'
      simp only [Option.bind_eq_bind, Option.bind_some] at hn'
      rw [hn']
      unfold fpc
      simp [EGraph.setP]
  · simp only [Option.some.injEq] at he
    subst he
    exact ⟨rfl, rfl, rfl, rfl, VKeep.refl _, fun _ => rfl, .inl fun _ => rfl⟩

theorem passChild_total {n Z c : Nat} (hN : s.p.g.N = n) (hZ : Z ≤ n) (hc : c < s.kids.N) :
    ∃ s', s.passChild Z (c + n) = some s' := by
  unfold EGraph.passChild EGraph.nextChild
  have h2 : s.childOf (c + n) = some c := by unfold EGraph.childOf; rw [hN, if_pos (by omega)]; simp
  have h1 : s.p.rdVI Z = some (s.p.VI Z) := if_pos (by omega)
  simp only [h1, h2, Option.bind_eq_bind, Option.bind_some]
  split
  · next hh =>
    rw [← hh]
    have h3 : ∃ m, LC.getNext s.kids (s.p.VI Z).sortedDFSChildList c = some m := by
      unfold LC.getNext
      rw [LC.rdNext_eq hc]
      simp only [Option.bind_eq_bind, Option.bind_some]
      split <;> exact ⟨_, rfl⟩
    obtain ⟨m, h3⟩ := h3
    rw [h3]
    simp only [Option.bind_some]
    have h4 : s.p.wrVI Z { s.p.VI Z with futurePertinentChild := m } =
      some { s.p with VI := update s.p.VI Z { s.p.VI Z with futurePertinentChild := m } } := if_pos (by omega)
    rw [h4]; exact ⟨_, rfl⟩
  · exact ⟨_, rfl⟩

/-- Neither the arc nor its twin is in a list. -/
def Off (G : Gh B.D) (e : Nat) : Prop := ∀ x, e ∉ raw G x ∧ twin e ∉ raw G x

theorem holder_le {c : Nat} (hch : B.Child c) : holder G c ≤ B.N ∨ (holder G c = c + B.N ∧ G.Live B.N c) := by
  by_cases hl : G.L (c + B.N) = []
  · rw [holder_dead hl]; have := B.par_lt c hch.1 hch.2.1; have := hch.2.1; left; omega
  · exact .inr ⟨holder_live ⟨hch.1, hl⟩, hch.1, hl⟩

/-- One round of `_MergeBicomps`. -/
theorem mergeOne_spec (r : Rep B s G) (h : Good B.N B.par B.α G) {b c Z x : Nat} {P Q T : List Nat} (hb : G.Live B.N b)
    (hc : G.Live B.N c) (hZc : B.par c = Z) (hX : G.X b = P ++ Z :: Q) (hxc : G.X c = T ++ [x])
    (op : Open s (c + B.N) (G.X c) G.o) {PR : Nat → List Nat}
    (hpr : Lists s.roots (pr s) B.N PR) (hcP : c ∈ PR Z) (hck : c < s.kids.N) :
    ∃ s', s.mergeOne (c + B.N) (G.o (c + B.N)) Z (!G.o Z) = some s' ∧
    Rep B s' (G.merge B.N b Z c Q) ∧ Lists s'.roots (pr s') B.N (update PR Z ((PR Z).erase c)) ∧ VKeep s.p s'.p ∧
      s'.kids = s.kids ∧ s'.p.g.stack = s.p.g.stack ∧ (∀ e, Off G e → s'.p.g.E e = s.p.g.E e) ∧
      (∀ y d, y ≠ c + B.N → s'.ext y d = if y = x ∧ d = G.o x then Z else if y = Z ∧ d = !G.o Z then x else s.ext y d) ∧
      FpcStep s s' Z c ∧ s'.roots.N = s.roots.N := by
  generalize he : s.mergeOne (c + B.N) (G.o (c + B.N)) Z (!G.o Z) = o
  obtain ⟨hZ1, hZN, hZb⟩ := h.bd b hb Z (by rw [hX]; simp)
  obtain ⟨hcN, hc0, hcr⟩ := h.root c hc
  obtain ⟨hx1, hxN, hxcp⟩ := h.bd c hc x (by rw [hxc]; simp)
  have hc1 := hc.1
  have hch : B.Child c := ⟨hc1, hcN, hc0⟩
  have hlt := B.par_lt c hc1 hcN
  have hbZ : b ≤ Z := hZb ▸ h.cp_le B.par_lt hZ1 hZN
  have hZx : Z ≠ x := by rintro rfl; rw [hZb] at hxcp; omega
  set R := c + B.N with hR
  have hRv : R < s.p.g.vSize := by rw [r.vSize]; omega
  have hxv : x < s.p.g.vSize := by rw [r.vSize]; omega
  have hZv : Z < s.p.g.vSize := by rw [r.vSize]; omega
  have hZR : Z ≠ R := by omega
  rw [hxc] at op
  unfold EGraph.mergeOne at he
  rw [linkExt_spec op (!G.o Z) hZx hRv hxv hZv] at he
  simp only [Option.bind_eq_bind, Option.bind_some] at he
  set s1 := withExt (withExt s Z (!G.o Z) x) x (G.o x) Z with hs1
  have r1 : Rep B s1 G := r.of_eq rfl fun _ _ _ => rfl
  have hext1 : ∀ y d, s1.ext y d = if y = x ∧ d = G.o x then Z else if y = Z ∧ d = !G.o Z then x else s.ext y d := fun y d => rfl
  -- turned so that its orientation is that of Z
  obtain ⟨g2, x2, e1, hL2, hF2, hst2, hfl2, hnb2, hoff2, hx2⟩ : ∃ g2 x2,
      (if (!G.o Z) = G.o R then s1.flipRoot R else some s1) = some { s1.setG g2 with ext := x2 } ∧
      Links g2 (update (raw G) R (dir (G.o Z) ((G.L R).map (·.1)))) ∧ Fix s.p.g g2 ∧ g2.stack = s.p.g.stack ∧
      (∀ e, (g2.E e).flags = if e = B.ta c ∧ (!G.o Z) = G.o R then (s.p.g.E e).flags ^^^ 16 else (s.p.g.E e).flags) ∧
      (∀ e, (g2.E e).nbr = (s.p.g.E e).nbr) ∧ (∀ e, e ∉ raw G R → g2.E e = s.p.g.E e) ∧
      (∀ y b, y ≠ R → x2 y b = s1.ext y b) := by
    by_cases hf : (!G.o Z) = G.o R
    · rw [if_pos hf]
      obtain ⟨g2, x2, e1, e2, e3, e4, e5, e6, e7, e8⟩ := flipRoot_spec r1 hc hch
      refine ⟨g2, x2, e1, ?_, e3, e4, ?_, e6, e7, e8⟩
      · have : (raw G R).reverse = dir (G.o Z) ((G.L R).map (·.1)) := by
          unfold raw; rw [← hf]; cases G.o Z <;> simp
        rw [← this]; exact e2
      · intro e; rw [e5]; simp [hf]; rfl
    · rw [if_neg hf]
      refine ⟨s.p.g, s1.ext, rfl, ?_, Fix.refl _, rfl, ?_, fun _ => rfl, fun _ _ => rfl, fun _ _ _ => rfl⟩
      · have : dir (G.o Z) ((G.L R).map (·.1)) = raw G R := by
          unfold raw
          have : G.o Z = G.o R := by revert hf; cases G.o Z <;> cases G.o R <;> simp
          rw [this]
        rw [this, update_eq_self]; exact r.links
      · intro e; simp [hf]
  have hN2 : g2.N = B.N := by rw [hF2.N, r.N]
  have he2 : ((if (!G.o Z) = G.o R then s1.flipRoot R else some s1).bind fun s => (s.deleteRoot Z R).bind fun s =>
      (s.passChild Z R).bind fun s => (mergeVertex s.p.g Z (!G.o Z) R).bind fun g => pure (s.setG g)) = o := by
    by_cases hf : (!G.o Z) = G.o R
    · rw [if_pos hf] at he ⊢; exact he
    · rw [if_neg hf] at he ⊢; exact he
  clear he
  rename' he2 => he
  rw [e1] at he
  simp only [Option.bind_some] at he
  obtain ⟨s3, e3, g3, ext3, kids3, vk3, l3, f3, rn3⟩ := deleteRoot_spec (s := { s1.setG g2 with ext := x2 }) (PR := PR) (n := B.N) hN2
    (hpr.congr rfl (fun _ _ _ => rfl) fun _ _ _ => ⟨rfl, rfl⟩) (Z := Z) (c := c) ⟨hZ1, hZN⟩ hcP
  rw [e3] at he
  simp only [Option.bind_some] at he
  have g3' : s3.p.g = g2 := g3
  obtain ⟨s4, e4⟩ := passChild_total (s := s3) (n := B.N) (Z := Z) (c := c) (by rw [g3']; exact hN2) hZN (by rw [kids3]; exact hck)
  rw [e4] at he
  simp only [Option.bind_some] at he
  obtain ⟨g4, ext4, kids4, roots4, vk4, pr4, f4⟩ := passChild_spec (n := B.N) (by rw [g3']; exact hN2) e4
  have g4' : s4.p.g = g2 := g4.trans g3'
  set rot1 := update (raw G) R (dir (G.o Z) ((G.L R).map (·.1))) with hrot1
  have hmemR : ∀ e, e ∈ rot1 R ↔ e ∈ raw G R := by
    intro e; rw [hrot1, update_self, mem_dir]; unfold raw; rw [mem_dir]
  have hmem1 : ∀ e y, e ∈ rot1 y ↔ e ∈ raw G y := by
    intro e y
    by_cases hy : y = R
    · subst hy; exact hmemR e
    · rw [hrot1, update_of_ne hy]
  have hv2 : g2.vSize = 1 + B.N + B.N := by unfold Graph.vSize; rw [hN2]
  have hes2 : g2.eSize = s.p.g.eSize := hF2.eSize
  obtain ⟨g5, e5, hL5, hF5, hst5, hfl5, hnb5, hlk5⟩ := mergeVertex_spec (g := g2) (rot := rot1) hL2 (W := Z) (R := R) (!G.o Z) hZR
    ⟨hZ1, by omega⟩ ⟨by omega, by omega⟩
    (fun e hh => by
      obtain ⟨hA, _⟩ := mem_raw.1 ((hmemR e).1 hh)
      rw [hes2]; exact (r.arc (B.tw e hA)).2)
    (fun hh => by
      have := hc.2
      obtain ⟨d, hd⟩ := List.exists_mem_of_ne_nil _ this
      have : d.1 ∈ rot1 R := (hmemR _).2 (mem_raw'.2 hd)
      rw [hh] at this; simp at this)
  rw [g4', e5] at he
  simp only [Option.bind_some, pure] at he
  subst he
  have hnbr : ∀ a, (g5.E a).nbr = if twin a ∈ raw G R then Z else (s.p.g.E a).nbr := by
    intro a; rw [hnb5, hnb2, if_congr (hmemR _) rfl rfl]
  have hflg : ∀ e, (g5.E e).flags = if e = B.ta c ∧ (!G.o Z) = G.o R then (s.p.g.E e).flags ^^^ 16 else (s.p.g.E e).flags := by
    intro e; rw [hfl5, hfl2]
  have hoffE : ∀ e, (∀ y, e ∉ raw G y) → (∀ y, twin e ∉ raw G y) → g5.E e = s.p.g.E e := by
    intro e h1 h2
    refine ERec.ext_link ?_ ?_ ?_
    · intro d
      rw [hlk5 e d fun w hw => h1 w ((hmem1 e w).1 hw), hoff2 e (h1 _)]
    · rw [hnbr, if_neg (h2 _)]
    · rw [hfl5, hoff2 e (h1 _)]
  have hrawM : raw (G.merge B.N b Z c Q) = mergeRot rot1 Z R (appendEnd (!G.o Z) (rot1 Z) (rot1 R)) := by
    funext y
    unfold raw
    rw [merge_L]
    show dir (G.o y) _ = _
    unfold mergeRot
    by_cases hyR : y = R
    · subst hyR
      rw [if_neg (fun hh => hZR hh.symm), if_pos rfl, update_self]
      cases G.o R <;> simp
    · rw [update_of_ne hyR]
      by_cases hyZ : y = Z
      · subst hyZ
        rw [if_pos rfl, update_self, List.map_append, dir_append, hrot1, update_of_ne hZR, update_self]
        rfl
      · rw [if_neg hyZ, if_neg hyR, update_of_ne hyZ, hrot1, update_of_ne hyR]
        rfl
  have hmemM : ∀ e y, e ∈ raw (G.merge B.N b Z c Q) y ↔ (y = Z ∧ (e ∈ raw G Z ∨ e ∈ raw G R)) ∨ (y ≠ Z ∧ y ≠ R ∧ e ∈ raw G y) := by
    intro e y
    rw [mem_raw]
    simp only [merge_L]
    by_cases hyZ : y = Z
    · subst hyZ
      simp only [if_true, List.mem_append, true_and, ne_eq, not_true, false_and, or_false]
      rw [mem_raw, mem_raw]
      constructor
      · rintro ⟨hA, h1 | h1⟩
        · exact .inl ⟨hA, h1⟩
        · exact .inr ⟨hA, h1⟩
      · rintro (⟨hA, h1⟩ | ⟨hA, h1⟩)
        · exact ⟨hA, .inl h1⟩
        · exact ⟨hA, .inr h1⟩
    · rw [if_neg hyZ]
      by_cases hyR : y = R
      · simp [hyR, hR]
        intro hh; omega
      · rw [if_neg hyR]
        simp only [hyZ, hyR, false_and, false_or, ne_eq, not_false_eq_true, true_and]
        exact mem_raw.symm
  have hholdM : ∀ k, B.Child k → holder (G.merge B.N b Z c Q) k = if k = c then Z else holder G k := by
    intro k hk
    by_cases hkc : k = c
    · subst hkc
      rw [if_pos rfl, holder_dead, hZc]
      rw [merge_L, if_neg (fun hh => hZR hh.symm), if_pos rfl]
    · rw [if_neg hkc]
      unfold holder
      have h1 : ¬ k + B.N = Z := by have := hk.1; omega
      have h2 : ¬ k + B.N = R := by omega
      rw [merge_L, if_neg h1, if_neg h2]
  refine ⟨_, rfl, ⟨?_, ?_, ?_, ?_, ?_, ?_, ?_, ?_, ?_, ?_, ?_⟩, ?_, ?_, ?_, ?_, ?_, ?_, ?_, ?_⟩
  · exact r.fix.trans (hF2.trans hF5)
  · rw [hrawM]; exact hL5
  · intro y e hy
    show (g5.E (twin e)).nbr = y
    rw [hnbr, twin_twin]
    rcases (hmemM e y).1 hy with ⟨rfl, h1 | h1⟩ | ⟨h1, h2, h3⟩
    · rw [if_neg (fun hh => hZR (r.links.disj _ _ _ h1 hh))]
      exact r.owner _ _ h1
    · rw [if_pos h1]
    · rw [if_neg (fun hh => h2 (r.links.disj _ _ _ h3 hh))]
      exact r.owner _ _ h3
  · intro e hA
    show (g5.E e).flags &&& 14 = 14 ↔ _
    rw [hflg, ← r.typ e hA]
    split
    · rw [xor16]
    · rfl
  · intro e hA
    show (g5.E e).flags &&& 14 = 6 ↔ _
    rw [hflg, ← r.typ' e hA]
    split
    · rw [xor16]
    · rfl
  · intro k hk
    rw [hholdM k hk, hmemM]
    have hh := r.hold k hk
    by_cases hkc : k = c
    · subst hkc
      rw [holder_live hc] at hh
      rw [if_pos rfl]
      exact .inl ⟨rfl, .inr hh⟩
    · rw [if_neg hkc]
      by_cases hyZ : holder G k = Z
      · rw [hyZ] at hh ⊢; exact .inl ⟨rfl, .inl hh⟩
      · refine .inr ⟨hyZ, ?_, hh⟩
        rcases holder_le hk (G := G) with h1 | h1 <;> omega
  · intro k hk
    rw [hmemM]
    by_cases hkZ : k = Z
    · subst hkZ; exact .inl ⟨rfl, .inl (r.foot _ hk)⟩
    · exact .inr ⟨hkZ, by have := hk.2.1; omega, r.foot k hk⟩
  · intro k hk
    show (g5.E (B.ta k)).flags.testBit 4 = (G.o k != G.o (holder (G.merge B.N b Z c Q) k))
    rw [hholdM k hk, hflg]
    by_cases hkc : k = c
    · subst hkc
      have hs := r.sign k hk
      rw [holder_live hc] at hs
      rw [if_pos rfl]
      by_cases hf : (!G.o Z) = G.o R
      · rw [if_pos ⟨rfl, hf⟩, Nat.testBit_xor, hs, ← hf]
        have : Nat.testBit 16 4 = true := by decide
        rw [this]
        cases G.o k <;> cases G.o Z <;> rfl
      · rw [if_neg (fun hh => hf hh.2), hs]
        have : G.o Z = G.o R := by revert hf; cases G.o Z <;> cases G.o R <;> simp
        rw [this]
    · have hne : B.ta k ≠ B.ta c := by
        intro hh
        have h1 := r.foot k hk
        rw [hh] at h1
        exact hkc (r.links.disj _ _ _ h1 (r.foot c hch))
      rw [if_neg (fun hh => hne hh.1), if_neg hkc]
      exact r.sign k hk
  · intro y h1 h2
    show (s4.p.VI y).parent = _
    rw [vk4.parent, vk3.parent]
    exact r.parent y h1 h2
  · intro e hA
    refine (hoffE e (fun y hy => hA (mem_raw.1 hy).1) (fun y hy => hA ?_)).trans (r.zero e hA)
    have := B.tw _ (mem_raw.1 hy).1
    rwa [twin_twin] at this
  · intro y e hy
    rcases (hmemM e y).1 hy with ⟨rfl, h1 | h1⟩ | ⟨h1, h2, h3⟩
    · exact r.home _ _ h1
    · rw [r.home _ _ h1, hR, B.home_root hc.1, hZc, B.home_le hZN]
    · exact r.home _ _ h3
  · refine l3.congr (by show s4.roots.N = _; rw [roots4]) ?_ ?_
    · intro z _ _; exact pr4 z
    · intro z y _
      show s4.roots.next y = _ ∧ s4.roots.prev y = _
      rw [roots4]; exact ⟨rfl, rfl⟩
  · refine VKeep.trans (b := s3.p) ?_ (VKeep.trans vk4 (VKeep.of_eq rfl))
    exact VKeep.trans (b := ({ s1.setG g2 with ext := x2 } : EGraph).p) (VKeep.of_eq rfl) vk3
  · show s4.kids = _
    rw [kids4, kids3]; rfl
  · show g5.stack = _
    rw [hst5, hst2]
  · intro e ho
    exact hoffE e (fun y => (ho y).1) (fun y => (ho y).2)
  · intro y d hy
    show s4.ext y d = _
    rw [ext4, ext3]
    show x2 y d = _
    rw [hx2 y d hy, hext1]
  · have hkid : s3.kids = s.kids := kids3
    rcases f4 with f4 | ⟨f4, f5, f6⟩
    · exact .inl fun y => (f4 y).trans (f3 y)
    · refine .inr ⟨fun y hy => (f4 y hy).trans (f3 y), (f3 Z).symm.trans f5, ?_⟩
      rw [hkid, vk3.kids] at f6
      exact f6
  · show s4.roots.N = _
    rw [roots4, rn3]; rfl

end Verif.Embed
