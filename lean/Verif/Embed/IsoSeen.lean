import Verif.Embed.IsoOrient

/-
Marks of vertices: nothing before the search for a path marks a vertex.
-/
namespace Verif.Isolate
open Verif Verif.Embed Verif.Graph Verif.EGraph Verif.Random Verif.Test Function

variable {g g' : Graph} {s : EGraph}

theorem Ok.and {o : Option (EGraph × Bool)} {P Q : EGraph → Prop} (h : Ok o P) (h' : Ok o Q) : Ok o fun s => P s ∧ Q s :=
  fun r hr ho => ⟨h r hr ho, h' r hr ho⟩

/-- The vertex is marked. -/
def Seen (g : Graph) (z : Nat) : Prop := (g.V z).flags % 2 = 1

/-- No vertex gets a mark. -/
def Lo (g g' : Graph) : Prop := ∀ z, Seen g' z → Seen g z

theorem Lo.refl (g : Graph) : Lo g g := fun _ h => h
theorem Lo.trans {g g' g'' : Graph} (h : Lo g g') (h' : Lo g' g'') : Lo g g'' := fun z hz => h z (h' z hz)
theorem Lo.same (h : g'.V = g.V) : Lo g g' := by intro z hz; unfold Seen at hz ⊢; rwa [h] at hz

theorem wrV_lo {v : Nat} {r : VRec} (h : r.flags % 2 = 1 → (g.V v).flags % 2 = 1) : Ens (g.wrV v r) (Lo g) := by
  unfold wrV
  refine Ens.ite (fun _ => Ens.some ?_) fun _ => Ens.none
  intro z hz
  unfold Seen at hz ⊢
  by_cases hzv : z = v
  · subst hzv
    refine h ?_
    simpa using hz
  · simpa [update_of_ne hzv] using hz

theorem wrE_lo (e : Nat) (r : ERec) : Ens (g.wrE e r) (Lo g) := by
  unfold wrE; exact Ens.ite (fun _ => Ens.some (Lo.same rfl)) fun _ => Ens.none
theorem clearVisited_lo (v : Nat) : Ens (g.clearVisited v) (Lo g) := by
  unfold clearVisited
  refine Ens.bind (rdV_val v) fun r hr => wrV_lo fun h => ?_
  dsimp only at h; omega
theorem clearVisited_un (v : Nat) : Ens (g.clearVisited v) fun g' => ¬ Seen g' v := by
  unfold clearVisited
  refine Ens.bind (rdV_val v) fun r hr => ?_
  unfold wrV
  refine Ens.ite (fun _ => Ens.some ?_) fun _ => Ens.none
  unfold Seen
  simp
theorem clearEdgeVisited_lo (e : Nat) : Ens (clearEdgeVisited g e) (Lo g) := by
  unfold clearEdgeVisited; exact Ens.skip fun _ _ => wrE_lo _ _
theorem setAdj_lo (e : Nat) (b : Bool) (x : Nat) : Ens (g.setAdj e b x) (Lo g) := by
  unfold setAdj; exact Ens.skip fun _ _ => wrE_lo _ _
theorem setArc_lo (v : Nat) (b : Bool) (x : Nat) : Ens (g.setArc v b x) (Lo g) := by
  unfold setArc
  refine Ens.bind (rdV_val v) fun r hr => wrV_lo fun h => ?_
  rw [hr] at h; cases b <;> exact h

theorem and14_even (n : Nat) : (n &&& 14) % 2 = 0 := by
  have h := Nat.and_mod_two_pow (n := 1) (a := n) (b := 14)
  simpa using h
theorem sub_and14 (n : Nat) : (n - (n &&& 14)) % 2 = n % 2 := by
  have h1 := and14_even n
  have h2 : n &&& 14 ≤ n := Nat.and_le_left
  omega
theorem or_even (n : Nat) {ty : Nat} (h : ty % 2 = 0) : (n ||| ty) % 2 = n % 2 := by
  have h1 := Nat.or_mod_two_pow (n := 1) (a := n) (b := ty)
  simpa [h] using h1

theorem clearObst_lo (v : Nat) : Ens (clearObst g v) (Lo g) := by
  unfold clearObst
  refine Ens.bind (rdV_val v) fun r hr => wrV_lo fun h => ?_
  dsimp only at h; rw [sub_and14, hr] at h; exact h
theorem resetObst_lo (v : Nat) {ty : Nat} (ht : ty % 2 = 0) : Ens (resetObst g v ty) (Lo g) := by
  unfold resetObst
  refine Ens.bind (rdV_val v) fun r hr => wrV_lo fun h => ?_
  dsimp only at h; rw [or_even _ ht, sub_and14, hr] at h; exact h
theorem push_lo (x : Nat) : Ens (g.push x) (Lo g) := by
  unfold push; exact Ens.ite (fun _ => Ens.some (Lo.same rfl)) fun _ => Ens.none
theorem push2_lo (x y : Nat) : Ens (g.push2 x y) (Lo g) := by
  unfold push2; exact Ens.bind (push_lo x) fun _ h => (push_lo y).mono fun _ h' => h.trans h'
theorem pop_lo : Ens g.pop fun r => Lo g r.2 := by
  unfold pop
  split
  · exact Ens.some (Lo.same rfl)
  · exact Ens.none

theorem typeArcs_lo : ∀ (fuel : Nat) (g : Graph) (e : Nat), Ens (typeArcs fuel g e) (Lo g)
  | 0, g, e => by unfold typeArcs; exact Ens.ite (fun _ => Ens.some (.refl _)) fun _ => Ens.none
  | fuel + 1, g, e => by
    unfold typeArcs
    refine Ens.ite (fun _ => Ens.some (.refl _)) fun _ => Ens.skip fun ty _ => ?_
    refine Ens.ite (fun _ => Ens.skip fun n _ => Ens.bind (push_lo n) fun g2 h2 => ?_) fun _ => Ens.bind (P := fun x => x = g) (Ens.some rfl) fun g2 h2 => ?_
    · exact Ens.skip fun n _ => (typeArcs_lo fuel g2 n).mono fun _ h3 => h2.trans h3
    · subst h2; exact Ens.skip fun n _ => typeArcs_lo fuel g2 n

theorem typeLoop_lo (bottom : Nat) : ∀ (fuel : Nat) (g : Graph), Ens (typeLoop bottom fuel g) (Lo g)
  | 0, g => by unfold typeLoop; exact Ens.ite (fun _ => Ens.some (.refl _)) fun _ => Ens.none
  | fuel + 1, g => by
    unfold typeLoop
    refine Ens.ite (fun _ => Ens.some (.refl _)) fun _ => Ens.bind pop_lo fun ⟨v, g1⟩ h1 => Ens.bind (clearObst_lo v) fun g2 h2 => Ens.skip fun a _ => ?_
    refine Ens.bind (typeArcs_lo _ g2 a) fun g3 h3 => (typeLoop_lo bottom fuel g3).mono fun _ h4 => ?_
    exact ((h1.trans h2).trans h3).trans h4

theorem clearTypes_lo (R : Nat) : Ens (clearTypes g R) (Lo g) := by
  unfold clearTypes
  exact Ens.bind (push_lo R) fun g1 h1 => (typeLoop_lo _ _ g1).mono fun _ h => h1.trans h

theorem typeSide_lo (X W : Nat) {low : Nat} (hl : low % 2 = 0) : ∀ (fuel : Nat) (g : Graph) (z : Nat) (prev : Bool) (ty : Nat), ty % 2 = 0 → Ens (typeSide X W low fuel g z prev ty) (Lo g)
  | 0, _, _, _, _, _ => Ens.none
  | fuel + 1, g, z, prev, ty, ht => by
    unfold typeSide
    have ht' : (if z = X then low else ty) % 2 = 0 := by split; exact hl; exact ht
    refine Ens.ite (fun _ => Ens.some (.refl _)) fun _ => Ens.bind (resetObst_lo z ht') fun g1 h1 => Ens.skip fun ⟨y, p⟩ _ => ?_
    exact (typeSide_lo X W hl fuel g1 y p _ ht').mono fun _ h2 => h1.trans h2

theorem setTypesXY_lo : Ens s.setTypesXY fun r => Lo s.p.g r.1.p.g := by
  unfold setTypesXY
  refine Ens.ite (fun _ => Ens.some (.refl _)) fun _ => Ens.bind (clearTypes_lo _) fun g1 h1 => Ens.skip fun ⟨z, p⟩ _ => ?_
  refine Ens.bind (typeSide_lo _ _ (low := 2) rfl _ g1 _ _ 10 rfl) fun g2 h2 => Ens.skip fun ⟨z', p'⟩ _ => ?_
  exact Ens.bind (typeSide_lo _ _ (low := 6) rfl _ g2 _ _ 14 rfl) fun g3 h3 => Ens.pure ((h1.trans h2).trans h3)

theorem clearArcs_lo : ∀ (fuel : Nat) (g : Graph) (e : Nat), Ens (clearArcs fuel g e) (Lo g)
  | 0, g, e => by unfold clearArcs; exact Ens.ite (fun _ => Ens.some (.refl _)) fun _ => Ens.none
  | fuel + 1, g, e => by
    unfold clearArcs
    refine Ens.ite (fun _ => Ens.some (.refl _)) fun _ => Ens.bind (clearEdgeVisited_lo e) fun g1 h1 => Ens.skip fun ty _ => ?_
    refine Ens.ite (fun _ => Ens.skip fun n _ => Ens.bind (push_lo n) fun g2 h2 => ?_) fun _ => Ens.bind (P := fun x => x = g1) (Ens.some rfl) fun g2 h2 => ?_
    · exact Ens.skip fun n _ => (clearArcs_lo fuel g2 n).mono fun _ h3 => (h1.trans h2).trans h3
    · subst h2; exact Ens.skip fun n _ => (clearArcs_lo fuel g2 n).mono fun _ h3 => h1.trans h3

theorem clearLoop_lo (bottom : Nat) : ∀ (fuel : Nat) (g : Graph), Ens (clearLoop bottom fuel g) (Lo g)
  | 0, g => by unfold clearLoop; exact Ens.ite (fun _ => Ens.some (.refl _)) fun _ => Ens.none
  | fuel + 1, g => by
    unfold clearLoop
    refine Ens.ite (fun _ => Ens.some (.refl _)) fun _ => Ens.bind pop_lo fun ⟨v, g1⟩ h1 => Ens.bind (clearVisited_lo v) fun g2 h2 => Ens.skip fun a _ => ?_
    refine Ens.bind (clearArcs_lo _ g2 a) fun g3 h3 => (clearLoop_lo bottom fuel g3).mono fun _ h4 => ?_
    exact ((h1.trans h2).trans h3).trans h4

theorem clearBicomp_lo (R : Nat) : Ens (clearBicomp g R) (Lo g) := by
  unfold clearBicomp
  exact Ens.bind (push_lo R) fun g1 h1 => (clearLoop_lo _ _ g1).mono fun _ h => h1.trans h

theorem invertArcs_lo : ∀ (fuel : Nat) (g : Graph) (e : Nat), Ens (invertArcs fuel g e) (Lo g)
  | 0, g, e => by unfold invertArcs; exact Ens.ite (fun _ => Ens.some (.refl _)) fun _ => Ens.none
  | fuel + 1, g, e => by
    unfold invertArcs
    refine Ens.ite (fun _ => Ens.some (.refl _)) fun _ => Ens.skip fun n _ => Ens.skip fun p _ => Ens.bind (setAdj_lo _ _ _) fun g1 h1 => Ens.bind (setAdj_lo _ _ _) fun g2 h2 => ?_
    exact (invertArcs_lo fuel g2 _).mono fun _ h3 => (h1.trans h2).trans h3

theorem invertVertex_lo (W : Nat) : Ens (s.invertVertex W) fun s' => Lo s.p.g s'.p.g := by
  unfold invertVertex
  refine Ens.skip fun a _ => Ens.bind (invertArcs_lo _ _ _) fun g1 h1 => Ens.skip fun t _ => Ens.skip fun l _ => Ens.bind (setArc_lo _ _ _) fun g2 h2 => Ens.bind (setArc_lo _ _ _) fun g3 h3 => ?_
  have hx : ∀ (s : EGraph) (W : Nat) (b : Bool) (x : Nat), Ens (s.setExt W b x) fun s' => s'.p.g = s.p.g := by
    intro s W b x
    unfold setExt
    exact Ens.ite (fun _ => Ens.some rfl) fun _ => Ens.none
  refine Ens.skip fun t _ => Ens.skip fun u _ => Ens.bind (hx _ _ _ _) fun s4 h4 => (hx _ _ _ _).mono fun s5 h5 => ?_
  rw [h5, h4]
  exact (h1.trans h2).trans h3

theorem pushKidsKeep_lo (flag : Nat) : ∀ (fuel : Nat) (g : Graph) (e : Nat), Ens (pushKidsKeep flag fuel g e) (Lo g)
  | 0, g, e => by unfold pushKidsKeep; exact Ens.ite (fun _ => Ens.some (.refl _)) fun _ => Ens.none
  | fuel + 1, g, e => by
    unfold pushKidsKeep
    refine Ens.ite (fun _ => Ens.some (.refl _)) fun _ => Ens.skip fun ty _ => ?_
    refine Ens.ite (fun _ => Ens.skip fun n _ => Ens.skip fun i _ => Ens.bind (push2_lo n _) fun g2 h2 => ?_) fun _ => Ens.bind (P := fun x => x = g) (Ens.some rfl) fun g2 h2 => ?_
    · exact Ens.skip fun n _ => (pushKidsKeep_lo flag fuel g2 n).mono fun _ h3 => h2.trans h3
    · subst h2; exact Ens.skip fun n _ => pushKidsKeep_lo flag fuel g2 n

theorem orientKeepLoop_lo (bottom : Nat) : ∀ (fuel : Nat) (s : EGraph), Ens (orientKeepLoop bottom fuel s) fun s' => Lo s.p.g s'.p.g
  | 0, s => by unfold orientKeepLoop; exact Ens.ite (fun _ => Ens.some (.refl _)) fun _ => Ens.none
  | fuel + 1, s => by
    unfold orientKeepLoop
    refine Ens.ite (fun _ => Ens.some (.refl _)) fun _ => Ens.bind pop_lo fun ⟨f, g1⟩ h1 => Ens.bind pop_lo fun ⟨W, g2⟩ h2 => ?_
    have rest : ∀ s3 : EGraph, Lo s.p.g s3.p.g → Ens (s3.p.g.getArc W false >>= fun a => pushKidsKeep f s3.p.g.eSize s3.p.g a >>= fun g => orientKeepLoop bottom fuel (s3.setG g)) fun s' => Lo s.p.g s'.p.g :=
      fun s3 h3 => Ens.skip fun a _ => Ens.bind (pushKidsKeep_lo f _ _ a) fun g4 h4 => (orientKeepLoop_lo bottom fuel (s3.setG g4)).mono fun s5 h5 => (h3.trans h4).trans h5
    refine Ens.ite (fun _ => Ens.bind (invertVertex_lo W) fun s3 h3 => rest s3 ((h1.trans h2).trans h3)) fun _ => Ens.bind (P := fun x => x = s.setG g2) (Ens.some rfl) fun s3 h3 => rest s3 ?_
    rw [h3]; exact h1.trans h2

theorem orientKeep_lo (R : Nat) : Ens (s.orientKeep R) fun s' => Lo s.p.g s'.p.g := by
  unfold orientKeep
  exact Ens.bind (push2_lo _ _) fun g1 h1 => (orientKeepLoop_lo _ _ _).mono fun s2 h2 => h1.trans h2

theorem clearFlags_un : Ens (clearFlags g) fun g' => ∀ z, 1 ≤ z → z ≤ g.N + g.N → ¬ Seen g' z := by
  unfold clearFlags
  have key : ∀ n (g : Graph), Ens ((List.range n).foldlM (fun g i => g.clearVisited (i + 1)) g) fun g' => ∀ z, 1 ≤ z → z ≤ n → ¬ Seen g' z := by
    intro n
    induction n with
    | zero => intro g; exact Ens.pure fun z h1 h2 => absurd h2 (by omega)
    | succ n ih =>
      intro g
      rw [List.range_succ, List.foldlM_append]
      refine Ens.bind (ih g) fun g1 h1 => ?_
      show Ens (g1.clearVisited (n + 1) >>= fun s => pure s) _
      refine Ens.bind ((clearVisited_lo _).and (clearVisited_un _)) fun g2 ⟨h2, h3⟩ => Ens.pure ?_
      intro z hz1 hz2 hh
      by_cases hz : z = n + 1
      · subst hz; exact h3 hh
      · exact h1 z hz1 (by omega) (h2 z hh)
  refine Ens.bind (key _ _) fun g1 h1 => Ens.fold (R := fun g2 : Graph => ∀ z, 1 ≤ z → z ≤ g.N + g.N → ¬ Seen g2 z) _ h1 fun g2 i h2 => ?_
  exact (clearEdgeVisited_lo _).mono fun g3 h3 z hz1 hz2 hh => h2 z hz1 hz2 (h3 z hh)

end Verif.Isolate
