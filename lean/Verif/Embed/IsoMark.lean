import Verif.Embed.IsoRing

/-
Which edges are marked while an obstruction is isolated.
-/
namespace Verif.Isolate
open Verif Verif.Embed Verif.Graph Verif.EGraph Verif.Random Verif.Test Function

variable {A : Nat → Prop} {g g' : Graph} {L L' : Nat → List Nat} {fo ba : Nat → Nat} {R : Nat} {xs : List Nat} {t : Nat → Nat} {M M' : Nat → Prop}

theorem Ens.and {α : Type} {o : Option α} {P Q : α → Prop} (h : Ens o P) (h' : Ens o Q) : Ens o fun a => P a ∧ Q a := fun a ha => ⟨h a ha, h' a ha⟩

/-- The marked arcs are those of `M`; the other flags are given by `t`. -/
def Tag (A : Nat → Prop) (t : Nat → Nat) (M : Nat → Prop) (g : Graph) : Prop :=
  ∀ e, A e → (g.E e).flags ||| 1 = t e ∧ ((g.E e).flags &&& 1 ≠ 0 ↔ M e)

theorem Tag.congr (h : Tag A t M g) (hE : g'.E = g.E) : Tag A t M g' := by intro e he; rw [hE]; exact h e he
theorem Tag.flags (h : Tag A t M g) (hE : ∀ e, A e → (g'.E e).flags = (g.E e).flags) : Tag A t M g' := by intro e he; rw [hE e he]; exact h e he
theorem Tag.mono (h : Tag A t M g) (hM : ∀ e, A e → (M e ↔ M' e)) : Tag A t M' g := fun e he => ⟨(h e he).1, (h e he).2.trans (hM e he)⟩

theorem or_one_and (n : Nat) : (n ||| 1) &&& 1 ≠ 0 := by
  rw [Nat.and_one_is_mod]
  have h : (n ||| 1).testBit 0 = true := by rw [Nat.testBit_or]; simp
  rw [Nat.testBit_zero, decide_eq_true_eq] at h
  omega
theorem sub_and_one (n : Nat) : (n - (n &&& 1)) &&& 1 = 0 := by
  rw [Nat.and_one_is_mod, Nat.and_one_is_mod]; omega
theorem sub_or_one (n : Nat) : (n - (n &&& 1)) ||| 1 = n ||| 1 := by
  apply Nat.eq_of_testBit_eq
  intro i
  rw [Nat.testBit_or, Nat.testBit_or, Nat.and_one_is_mod]
  cases i with
  | zero => simp
  | succ i =>
    have : (n - n % 2) / 2 = n / 2 := by omega
    rw [Nat.testBit_succ, Nat.testBit_succ n, this]
theorem type_or_one (n : Nat) : (n ||| 1) &&& 14 = n &&& 14 := by
  apply Nat.eq_of_testBit_eq
  intro i
  rw [Nat.testBit_and, Nat.testBit_and, Nat.testBit_or]
  cases i with
  | zero => simp [show Nat.testBit 14 0 = false by decide]
  | succ i =>
    have : Nat.testBit 1 (i + 1) = false := by rw [Nat.testBit_succ]; simp
    rw [this, Bool.or_false]

theorem setEdgeVisited_tag (h : Tag A t M g) (e : Nat) : Ens (setEdgeVisited g e) (Tag A t fun x => M x ∨ x = e) := by
  unfold setEdgeVisited
  refine Ens.bind (rdE_val e) fun r hr => ?_
  unfold wrE
  refine Ens.ite (fun _ => Ens.some fun x hx => ?_) fun _ => Ens.none
  show ((update g.E e _ x).flags ||| 1 = _) ∧ ((update g.E e _ x).flags &&& 1 ≠ 0 ↔ _)
  by_cases hxe : x = e
  · subst hxe
    rw [update_self, hr]
    refine ⟨?_, ?_⟩
    · show ((g.E x).flags ||| 1) ||| 1 = _
      rw [Nat.or_assoc, Nat.or_self]; exact (h x hx).1
    · exact iff_of_true (by show ((g.E x).flags ||| 1) &&& 1 ≠ 0; exact or_one_and _) (.inr rfl)
  · rw [update_of_ne hxe]
    exact ⟨(h x hx).1, (h x hx).2.trans (by simp [hxe])⟩

theorem clearEdgeVisited_tag (h : Tag A t M g) (e : Nat) : Ens (clearEdgeVisited g e) (Tag A t fun x => M x ∧ x ≠ e) := by
  unfold clearEdgeVisited
  refine Ens.bind (rdE_val e) fun r hr => ?_
  unfold wrE
  refine Ens.ite (fun _ => Ens.some fun x hx => ?_) fun _ => Ens.none
  show ((update g.E e _ x).flags ||| 1 = _) ∧ ((update g.E e _ x).flags &&& 1 ≠ 0 ↔ _)
  by_cases hxe : x = e
  · subst hxe
    rw [update_self, hr]
    refine ⟨?_, ?_⟩
    · show ((g.E x).flags - ((g.E x).flags &&& 1)) ||| 1 = _
      rw [sub_or_one]; exact (h x hx).1
    · refine iff_of_false ?_ fun hh => hh.2 rfl
      show ¬ ((g.E x).flags - ((g.E x).flags &&& 1)) &&& 1 ≠ 0
      rw [sub_and_one]; simp
  · rw [update_of_ne hxe]
    exact ⟨(h x hx).1, (h x hx).2.trans (by simp [hxe])⟩

theorem markEdge_tag (h : Tag A t M g) (e : Nat) : Ens (markEdge g e) (Tag A t fun x => M x ∨ x = e ∨ x = twin e) := by
  unfold markEdge
  exact Ens.bind (setEdgeVisited_tag h e) fun _ h1 => (setEdgeVisited_tag h1 (twin e)).mono fun _ h2 => h2.mono fun x _ => by tauto

/-- Arcs are not written. -/
def SameE (g g' : Graph) : Prop := g'.E = g.E

theorem wrV_sameE (v : Nat) (r : VRec) : Ens (g.wrV v r) (SameE g) := by
  unfold wrV; exact Ens.ite (fun _ => Ens.some rfl) fun _ => Ens.none
theorem setVisited_sameE (v : Nat) : Ens (g.setVisited v) (SameE g) := by
  unfold setVisited; exact Ens.skip fun _ _ => wrV_sameE _ _
theorem clearVisited_sameE (v : Nat) : Ens (g.clearVisited v) (SameE g) := by
  unfold clearVisited; exact Ens.skip fun _ _ => wrV_sameE _ _
theorem clearObst_sameE (v : Nat) : Ens (clearObst g v) (SameE g) := by
  unfold clearObst; exact Ens.skip fun _ _ => wrV_sameE _ _
theorem resetObst_sameE (v x : Nat) : Ens (resetObst g v x) (SameE g) := by
  unfold resetObst; exact Ens.skip fun _ _ => wrV_sameE _ _
theorem push_sameE (x : Nat) : Ens (g.push x) (SameE g) := by
  unfold push; exact Ens.ite (fun _ => Ens.some rfl) fun _ => Ens.none
theorem push2_sameE (x y : Nat) : Ens (g.push2 x y) (SameE g) := by
  unfold push2; exact Ens.bind (push_sameE x) fun _ h => (push_sameE y).mono fun _ h' => Eq.trans h' h
theorem pop_sameE : Ens g.pop fun r => SameE g r.2 := by
  unfold pop
  split
  · exact Ens.some rfl
  · exact Ens.none

theorem clearFlags_tag (h : Tag A t M g) (hA : ∀ e, A e → 2 ≤ e ∧ e < g.inUse) : Ens (clearFlags g) (Tag A t fun _ => False) := by
  unfold clearFlags
  refine Ens.bind (P := fun g' => SameE g g' ∧ g'.inUse = g.inUse) ?_ ?_
  · refine Ens.fold _ ⟨rfl, rfl⟩ fun a c ⟨h1, h2⟩ => ?_
    have h3 := (clearVisited_fr (A := fun _ => True) (g := a) (c + 1)).and (clearVisited_sameE (g := a) (c + 1))
    refine h3.mono fun b hb => ⟨Eq.trans hb.2 h1, ?_⟩
    rw [← h2]
    unfold inUse
    rw [strip_M hb.1.strip, strip_holes hb.1.strip]
  · rintro g1 ⟨h1, h2⟩
    rw [h2]
    refine (Ens.range (R := fun k g' => Tag A t (fun x => M x ∧ ¬ x < k + 2) g') ((h.congr h1).mono fun e he => ?_) (g.inUse - 2) fun k a _ ha => ?_).mono fun b hb => hb.mono fun e he => ?_
    · have := hA e he
      exact ⟨fun hm => ⟨hm, by omega⟩, fun hm => hm.1⟩
    · refine (clearEdgeVisited_tag ha (k + 2)).mono fun b hb => hb.mono fun e _ => ?_
      constructor
      · rintro ⟨⟨h1, h2⟩, h3⟩; exact ⟨h1, by omega⟩
      · rintro ⟨h1, h2⟩; exact ⟨⟨h1, by omega⟩, by omega⟩
    · have := hA e he
      exact ⟨fun hm => hm.2 (by omega), False.elim⟩

theorem clearArcs_tag : ∀ (fuel : Nat) (g : Graph) (e : Nat), Tag A t (fun _ => False) g → Ens (clearArcs fuel g e) (Tag A t fun _ => False)
  | 0, g, e, h => by unfold clearArcs; exact Ens.ite (fun _ => Ens.some h) fun _ => Ens.none
  | fuel + 1, g, e, h => by
    unfold clearArcs
    refine Ens.ite (fun _ => Ens.some h) fun _ => Ens.bind (clearEdgeVisited_tag h e) fun g1 h1 => Ens.skip fun ty _ => ?_
    have h1 : Tag A t (fun _ => False) g1 := h1.mono fun _ _ => by simp
    refine Ens.ite (fun _ => Ens.skip fun n _ => Ens.bind (push_sameE n) fun g2 h2 => ?_) fun _ => Ens.bind (P := fun x => x = g1) (Ens.some rfl) fun g2 h2 => ?_
    · exact Ens.skip fun n _ => clearArcs_tag fuel g2 n (h1.congr h2)
    · subst h2; exact Ens.skip fun n _ => clearArcs_tag fuel g2 n h1

theorem clearLoop_tag (bottom : Nat) : ∀ (fuel : Nat) (g : Graph), Tag A t (fun _ => False) g → Ens (clearLoop bottom fuel g) (Tag A t fun _ => False)
  | 0, g, h => by unfold clearLoop; exact Ens.ite (fun _ => Ens.some h) fun _ => Ens.none
  | fuel + 1, g, h => by
    unfold clearLoop
    refine Ens.ite (fun _ => Ens.some h) fun _ => Ens.bind pop_sameE fun ⟨v, g1⟩ h1 => Ens.bind (clearVisited_sameE v) fun g2 h2 => Ens.skip fun a _ => ?_
    have h2 := (h.congr h1).congr h2
    exact Ens.bind (clearArcs_tag _ g2 a h2) fun g3 h3 => clearLoop_tag bottom fuel g3 h3

theorem clearBicomp_tag (h : Tag A t (fun _ => False) g) (R : Nat) : Ens (clearBicomp g R) (Tag A t fun _ => False) := by
  unfold clearBicomp
  exact Ens.bind (push_sameE R) fun g1 h1 => clearLoop_tag _ _ g1 (h.congr h1)

theorem typeArcs_sameE : ∀ (fuel : Nat) (g : Graph) (e : Nat), Ens (typeArcs fuel g e) (SameE g)
  | 0, g, e => by unfold typeArcs; exact Ens.ite (fun _ => Ens.some rfl) fun _ => Ens.none
  | fuel + 1, g, e => by
    unfold typeArcs
    refine Ens.ite (fun _ => Ens.some rfl) fun _ => Ens.skip fun ty _ => ?_
    refine Ens.ite (fun _ => Ens.skip fun n _ => Ens.bind (push_sameE n) fun g2 h2 => ?_) fun _ => Ens.bind (P := fun x => x = g) (Ens.some rfl) fun g2 h2 => ?_
    · exact Ens.skip fun n _ => (typeArcs_sameE fuel g2 n).mono fun _ h3 => Eq.trans h3 h2
    · subst h2; exact Ens.skip fun n _ => typeArcs_sameE fuel g2 n

theorem typeLoop_sameE (bottom : Nat) : ∀ (fuel : Nat) (g : Graph), Ens (typeLoop bottom fuel g) (SameE g)
  | 0, g => by unfold typeLoop; exact Ens.ite (fun _ => Ens.some rfl) fun _ => Ens.none
  | fuel + 1, g => by
    unfold typeLoop
    refine Ens.ite (fun _ => Ens.some rfl) fun _ => Ens.bind pop_sameE fun ⟨v, g1⟩ h1 => Ens.bind (clearObst_sameE v) fun g2 h2 => Ens.skip fun a _ => ?_
    refine Ens.bind (typeArcs_sameE _ g2 a) fun g3 h3 => (typeLoop_sameE bottom fuel g3).mono fun _ h4 => ?_
    exact Eq.trans h4 (Eq.trans h3 (Eq.trans h2 h1))

theorem clearTypes_sameE (R : Nat) : Ens (clearTypes g R) (SameE g) := by
  unfold clearTypes
  exact Ens.bind (push_sameE R) fun g1 h1 => (typeLoop_sameE _ _ g1).mono fun _ h => Eq.trans h h1

theorem typeSide_sameE (X W low : Nat) : ∀ (fuel : Nat) (g : Graph) (z : Nat) (prev : Bool) (ty : Nat), Ens (typeSide X W low fuel g z prev ty) (SameE g)
  | 0, _, _, _, _ => Ens.none
  | fuel + 1, g, z, prev, ty => by
    unfold typeSide
    refine Ens.ite (fun _ => Ens.some rfl) fun _ => Ens.bind (resetObst_sameE z _) fun g1 h1 => Ens.skip fun ⟨y, p⟩ _ => ?_
    exact (typeSide_sameE X W low fuel g1 y p _).mono fun _ h2 => Eq.trans h2 h1

theorem pushKidsKeep_sameE (flag : Nat) : ∀ (fuel : Nat) (g : Graph) (e : Nat), Ens (pushKidsKeep flag fuel g e) (SameE g)
  | 0, g, e => by unfold pushKidsKeep; exact Ens.ite (fun _ => Ens.some rfl) fun _ => Ens.none
  | fuel + 1, g, e => by
    unfold pushKidsKeep
    refine Ens.ite (fun _ => Ens.some rfl) fun _ => Ens.skip fun ty _ => ?_
    refine Ens.ite (fun _ => Ens.skip fun n _ => Ens.skip fun i _ => Ens.bind (push2_sameE n _) fun g2 h2 => ?_) fun _ => Ens.bind (P := fun x => x = g) (Ens.some rfl) fun g2 h2 => ?_
    · exact Ens.skip fun n _ => (pushKidsKeep_sameE flag fuel g2 n).mono fun _ h3 => Eq.trans h3 h2
    · subst h2; exact Ens.skip fun n _ => pushKidsKeep_sameE flag fuel g2 n

/-- Marking the outer face. -/
theorem markExtLoop_tag (h : Cyc L fo ba R xs) : ∀ (fuel : Nat) (g : Graph) (M : Nat → Prop) (P Q : List Nat) (a : Nat) (prev : Bool), Lk A g L → Tag A t M g →
    R :: xs ++ [R] = P ++ a :: Q → Q ≠ [] → endIn (!prev) (L a) = fo a → Ens (markExtLoop R fuel g a prev) (Tag A t fun e => M e ∨ ∃ x ∈ Q, e = ba x ∨ e = twin (ba x))
  | 0, _, _, _, _, _, _, _, _, _, _, _ => Ens.none
  | fuel + 1, g, M, P, Q, a, prev, k, hT, hQ, h0, hp => by
    unfold markExtLoop
    obtain ⟨b, Q', rfl⟩ := List.exists_cons_of_ne_nil h0
    refine Ens.bind (h.step k hQ hp) fun ⟨z, p⟩ hr => ?_
    obtain ⟨rfl, h1, h2⟩ : z = b ∧ endIn p (L b) = ba b ∧ endIn (!p) (L b) = fo b := hr
    have hz : z ∈ R :: xs := mem_cyc (P := P ++ [a]) (Q := Q') (by rw [hQ]; simp)
    refine Ens.bind (getArc_val z p) fun e he => ?_
    have he : e = ba z := by rw [he.2, k.links.vlink z p he.1, h1]
    subst he
    have hm := (k.mark (h.ba_mem hz)).and (markEdge_tag hT (ba z))
    refine Ens.bind hm fun g1 ⟨f1, t1⟩ => Ens.bind ((setVisited_fr (A := A) z).and (setVisited_sameE z)) fun g2 ⟨f2, t2⟩ => ?_
    have k2 := k.fr (f1.trans f2)
    have T2 := t1.congr t2
    refine Ens.ite (fun hl => Ens.pure (T2.mono fun e _ => ?_)) fun hl => ?_
    · have hQ' : Q' = [] := by
        subst hl
        rcases List.eq_nil_or_concat Q' with h | ⟨l, y, rfl⟩
        · exact h
        · exfalso
          have h3 : z :: xs = P ++ a :: z :: l := by
            have : z :: xs ++ [z] = (P ++ a :: z :: l) ++ [y] := by rw [hQ]; simp
            exact (List.append_inj' this rfl).1
          have hnd := h.nodup
          rw [h3] at hnd
          cases P with
          | nil =>
            simp only [List.nil_append, List.cons.injEq] at h3
            rw [← h3.1] at hnd; simp at hnd
          | cons y P =>
            simp only [List.cons_append, List.cons.injEq] at h3
            rw [← h3.1] at hnd; simp at hnd
      subst hQ'
      simp
    · refine (markExtLoop_tag h fuel g2 _ (P ++ [a]) Q' z p k2 T2 (by rw [hQ]; simp) ?_ h2).mono fun g3 h3 => h3.mono fun e _ => ?_
      · rintro rfl
        have : R :: xs ++ [R] = (P ++ [a]) ++ [z] := by rw [hQ]; simp
        have := (List.append_inj' this rfl).2
        simp at this
        exact hl this.symm
      · simp only [List.mem_cons, exists_eq_or_imp, or_assoc]

end Verif.Isolate
