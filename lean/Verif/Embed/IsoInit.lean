import Verif.Embed.IsoPart

/-
The context of the isolation: the vertices r, x, y, w, z have arcs.
-/
namespace Verif.Isolate
open Verif Verif.Embed Verif.Graph Verif.EGraph Verif.Random Verif.Test Function

variable {A : Nat → Prop} {B : Base} {s s' : EGraph} {L fw : Nat → List Nat} {v : Nat}

/-- Whenever OK is returned, the state satisfies `Q`. -/
def Ok (o : Option (EGraph × Bool)) (Q : EGraph → Prop) : Prop := Ens o fun r => r.2 = true → Q r.1

theorem Ok.both {o : Option (EGraph × Bool)} {k : EGraph → Option (EGraph × Bool)} {P Q : EGraph → Prop} (h : Ok o P) (h' : ∀ s, P s → Ok (k s) Q) :
    Ok (both o k) Q := by
  refine Ens.bind h fun r hr => ?_
  obtain ⟨s, ok⟩ := r
  refine Ens.ite (fun h => h' s (hr h)) fun _ => Ens.pure fun h => by cases h
theorem Ok.mono {o : Option (EGraph × Bool)} {P Q : EGraph → Prop} (h : Ok o P) (h' : ∀ s, P s → Q s) : Ok o Q :=
  Ens.mono h fun _ hh ho => h' _ (hh ho)
theorem Ok.bind {α : Type} {o : Option α} {f : α → Option (EGraph × Bool)} {P : α → Prop} {Q : EGraph → Prop} (h : Ens o P) (h' : ∀ a, P a → Ok (f a) Q) :
    Ok (o >>= f) Q := Ens.bind h h'
theorem Ok.skip {α : Type} {o : Option α} {f : α → Option (EGraph × Bool)} {Q : EGraph → Prop} (h : ∀ a, o = some a → Ok (f a) Q) :
    Ok (o >>= f) Q := Ens.skip h
theorem Ok.ite {c : Prop} [Decidable c] {a b : Option (EGraph × Bool)} {Q : EGraph → Prop} (h : c → Ok a Q) (h' : ¬ c → Ok b Q) :
    Ok (if c then a else b) Q := Ens.ite h h'
theorem Ok.ret {Q : EGraph → Prop} (h : Q s) : Ok (some (s, true)) Q := Ens.some fun _ => h
theorem Ok.fail {Q : EGraph → Prop} : Ok (some (s, false)) Q := Ens.some fun h => by cases h

theorem Part.apart (hB : NoLoop B) (hh : ∀ x e, e ∈ L x → B.own e = B.home x) (ha : ∀ x e, e ∈ L x → B.A e) : ∀ x e, e ∈ L x → twin e ∉ L x :=
  fun x e he he' => hB e (ha x e he) ((hh x e he).trans (hh x _ he').symm)

theorem invertArcs_zero (fuel : Nat) (g : Graph) : invertArcs fuel g 0 = some g := by cases fuel <;> rfl
theorem setArc_same {g : Graph} {w : Nat} {b : Bool} {x : Nat} (h : (g.V w).link b = x) : Ens (g.setArc w b x) fun g' => g' = g := by
  unfold setArc
  refine Ens.bind (rdV_val w) fun r hr => ?_
  unfold wrV
  refine Ens.ite (fun _ => Ens.some ?_) fun _ => Ens.none
  subst hr
  have : (g.V w).setLink b x = g.V w := by rw [← h]; cases b <;> rfl
  rw [this, update_eq_self]
/-- What inverting a list does not change. -/
structure Flip (s s' : EGraph) : Prop where
  flags : ∀ e, (s'.p.g.E e).flags = (s.p.g.E e).flags
  nbr : ∀ e, (s'.p.g.E e).nbr = (s.p.g.E e).nbr
  vi : s'.p.VI = s.p.VI
  roots : s'.roots = s.roots
  stack : s'.p.g.stack = s.p.g.stack
  ic : s'.ic = s.ic

theorem Flip.trans {s'' : EGraph} (h : Flip s s') (h' : Flip s' s'') : Flip s s'' :=
  ⟨fun e => (h'.flags e).trans (h.flags e), fun e => (h'.nbr e).trans (h.nbr e), h'.vi.trans h.vi, h'.roots.trans h.roots, h'.stack.trans h.stack, h'.ic.trans h.ic⟩

theorem setExt_mv (w : Nat) (b : Bool) (x : Nat) : Ens (s.setExt w b x) fun s' => Mv A s s' ∧ Flip s s' := by
  unfold setExt
  exact Ens.ite (fun _ => Ens.some ⟨⟨.refl _ _, fun _ => ⟨_, rfl⟩⟩, ⟨fun _ => rfl, fun _ => rfl, rfl, rfl, rfl, rfl⟩⟩) fun _ => Ens.none

/-- Inverting the list of a vertex. -/
theorem Part.invert (hB : NoLoop B) (P : Part B s L fw) (I : Info B s v) (W : Nat) : Ens (s.invertVertex W) fun s' =>
    Part B s' (update L W (L W).reverse) fw ∧ Info B s' v ∧ Flip s s' := by
  by_cases hv : W < s.p.g.vSize
  · by_cases h1 : 1 ≤ W
    · obtain ⟨g', hg, h2, h3, h4⟩ := invertVertex_spec P.lk.links ⟨h1, hv⟩
      rw [hg]
      have hm : ∀ x e, e ∈ update L W (L W).reverse x ↔ e ∈ L x := by
        intro x e
        by_cases hx : x = W
        · subst hx; rw [update_self, List.mem_reverse]
        · rw [update_of_ne hx]
      have hnil : ∀ x, update L W (L W).reverse x ≠ [] ↔ L x ≠ [] := by
        intro x
        rw [ne_eq, ne_eq, not_iff_not, List.eq_nil_iff_forall_not_mem, List.eq_nil_iff_forall_not_mem]
        simp only [hm]
      have ho : ∀ u, ∀ f ∈ fw u, g'.E f = s.p.g.E f := fun u f hf => h4 f (P.off u f hf W).1
      refine Ens.some ⟨⟨P.fix.trans (.of_same h3), ⟨h2, ?_, ?_, ?_, ?_, ?_, P.lk.nil⟩, ?_, ?_, ?_, P.arc, P.own, ?_, P.up, P.down, ?_, P.once, ?_, P.parent, ?_⟩,
        ⟨I.la, I.low, I.pe⟩, ⟨h3.eflags, h3.nbr, rfl, rfl, h3.stack, rfl⟩⟩
      · intro x e he
        exact (h3.nbr _).trans (P.lk.owner x e ((hm x e).1 he))
      · intro x e he
        obtain ⟨y, hy⟩ := P.lk.pair x e ((hm x e).1 he)
        exact ⟨y, (hm y _).2 hy⟩
      · intro x e he; exact P.lk.arc x e ((hm x e).1 he)
      · intro x e he he'; exact P.lk.apart x e ((hm x e).1 he) ((hm x _).1 he')
      · intro e he
        exact (h4 e fun hh => he (P.lk.arc W e hh)).trans (P.lk.blank e he)
      · intro x e he; exact P.home x e ((hm x e).1 he)
      · intro c h1 hc; exact P.root c h1 ((hnil _).1 hc)
      · refine P.fwl.congr h3.eSize (fun _ _ _ => rfl) fun z y hy => ?_
        have := ho z y hy
        exact ⟨by show (g'.E y).link false = _; rw [this]; rfl, by show (g'.E y).link true = _; rw [this]; rfl⟩
      · intro u f hf; exact (h3.nbr _).trans (P.nbr u f hf)
      · intro u f hf x; rw [hm, hm]; exact P.off u f hf x
      · intro e he
        rcases P.cover e he with ⟨x, hx⟩ | h
        · exact .inl ⟨x, (hm x e).2 hx⟩
        · exact .inr h
      · intro c hc; rw [hnil, hnil, hnil]; exact P.full c hc
    · obtain rfl : W = 0 := by omega
      have h0 : ∀ b, (s.p.g.V 0).link b = 0 := fun b => P.lk.link_nil P.lk.at_zero hv b
      have : Ens (s.invertVertex 0) fun s' => Mv B.A s s' ∧ Flip s s' := by
        unfold invertVertex
        refine Ens.bind (getArc_val 0 false) fun a ha => ?_
        rw [ha.2, h0 false, invertArcs_zero]
        refine Ens.bind (Ens.some rfl : Ens _ fun g => g = s.p.g) fun g1 h1 => ?_
        subst h1
        refine Ens.bind (getArc_val 0 false) fun t ht => Ens.bind (getArc_val 0 true) fun l hl => ?_
        rw [ht.2, hl.2, h0 false, h0 true]
        refine Ens.bind (setArc_same (h0 false)) fun g2 h2 => ?_
        subst h2
        refine Ens.bind (setArc_same (h0 true)) fun g3 h3 => ?_
        subst h3
        refine Ens.skip fun t _ => Ens.skip fun u _ => Ens.bind (setExt_mv (A := B.A) 0 false u) fun s1 h1 => (setExt_mv (A := B.A) 0 true t).mono fun s2 h2 => ?_
        exact ⟨h1.1.trans h2.1, h1.2.trans h2.2⟩
      have hL : update L 0 (L 0).reverse = L := by rw [P.lk.at_zero]; exact (congrArg (update L 0) P.lk.at_zero.symm).trans (update_eq_self 0 L)
      rw [hL]
      exact this.mono fun s' h => ⟨P.mv h.1, I.mv h.1, h.2⟩
  · unfold invertVertex
    refine Ens.bind (getArc_val W false) fun a ha => absurd ha.1 hv

/-- Some lists, with what is known of the records. -/
def Held (B : Base) (s : EGraph) (v : Nat) (ic : IC) : Prop := ∃ L fw, Part B s L fw ∧ Info B s v ∧ s.ic = ic

theorem orientKeepLoop_held (hB : NoLoop B) (bottom : Nat) (ic : IC) : ∀ (fuel : Nat) (s : EGraph), Held B s v ic →
    Ens (orientKeepLoop bottom fuel s) fun s' => Held B s' v ic
  | 0, s, h => by unfold orientKeepLoop; exact Ens.ite (fun _ => Ens.some h) fun _ => Ens.none
  | fuel + 1, s, ⟨L, fw, P, I, hi⟩ => by
    unfold orientKeepLoop
    refine Ens.ite (fun _ => Ens.some ⟨L, fw, P, I, hi⟩) fun _ => Ens.bind (pop_fr (A := B.A)) fun ⟨flag, g1⟩ h1 => Ens.bind (pop_fr (A := B.A)) fun ⟨W, g2⟩ h2 => ?_
    have m := Mv.setG s (h1.trans h2)
    have hj : ∀ s1, Held B s1 v ic → Ens (s1.p.g.getArc W false >>= fun a => pushKidsKeep flag s1.p.g.eSize s1.p.g a >>= fun g =>
        orientKeepLoop bottom fuel (s1.setG g)) fun s' => Held B s' v ic := by
      rintro s1 ⟨L, fw, P, I, hi⟩
      refine Ens.skip fun a _ => Ens.bind (pushKidsKeep_fr (A := B.A) flag _ _ a) fun g h => ?_
      exact orientKeepLoop_held hB bottom ic fuel _ ⟨L, fw, P.mv (Mv.setG s1 h), I.mv (Mv.setG s1 h), hi⟩
    refine Ens.ite (fun _ => Ens.bind ((P.mv m).invert hB (I.mv m) W) ?_) fun _ => Ens.bind (Ens.some ⟨L, fw, P.mv m, I.mv m, hi⟩) hj
    rintro s1 h
    exact hj s1 ⟨_, fw, h.1, h.2.1, h.2.2.ic.trans hi⟩

theorem orientKeep_held (hB : NoLoop B) {ic : IC} (h : Held B s v ic) (R : Nat) : Ens (s.orientKeep R) fun s' => Held B s' v ic := by
  obtain ⟨L, fw, P, I, hi⟩ := h
  unfold orientKeep
  refine Ens.bind (push2_fr (A := B.A) R 0) fun g hg => ?_
  exact orientKeepLoop_held hB _ _ _ _ ⟨L, fw, P.mv (Mv.setG s hg), I.mv (Mv.setG s hg), hi⟩

theorem rdVI_val {p : PGraph} (x : Nat) : Ens (p.rdVI x) fun r => x < 1 + p.g.N ∧ r = p.VI x := by
  unfold PGraph.rdVI; exact Ens.ite (fun h => Ens.some ⟨h, rfl⟩) fun _ => Ens.none

theorem updateFuture_mv (w v : Nat) : ∀ (fuel : Nat) (s : EGraph), Ens (s.updateFuture w v fuel) fun s' => Mv A s s' ∧ s'.ic = s.ic ∧ s'.p.g = s.p.g
  | 0, _ => Ens.none
  | fuel + 1, s => by
    unfold updateFuture
    refine Ens.bind (rdVI_val w) fun r hr => Ens.ite (fun _ => Ens.pure ⟨.refl _ _, rfl, rfl⟩) fun _ => Ens.skip fun low _ => Ens.skip fun a _ => ?_
    refine Ens.ite (fun _ => Ens.skip fun n _ => ?_) fun _ => Ens.pure ⟨.refl _ _, rfl, rfl⟩
    have : Ens (s.p.wrVI w { r with futurePertinentChild := n }) fun p => Mv A s (s.setP p) ∧ p.g = s.p.g := by
      unfold PGraph.wrVI
      refine Ens.ite (fun _ => Ens.some ⟨⟨.refl _ _, fun x => ?_⟩, rfl⟩) fun _ => Ens.none
      by_cases hx : x = w
      · subst hx; exact ⟨n, by show update s.p.VI x _ x = _; rw [update_self, hr.2]⟩
      · exact ⟨(s.p.VI x).futurePertinentChild, by show update s.p.VI w _ x = _; rw [update_of_ne hx]⟩
    refine Ens.bind this fun p hp => (updateFuture_mv w v fuel (s.setP p)).mono fun s' h => ⟨hp.1.trans h.1, h.2.1, h.2.2.trans hp.2⟩

theorem findActive_spec (v : Nat) : ∀ (fuel : Nat) (s : EGraph) (x : Nat) (prev : Bool), Lk A s.p.g L → (x = 0 ∨ L x ≠ []) →
    Ens (findActive v fuel s x prev) fun r => Mv A s r.1 ∧ r.1.ic = s.ic ∧ (r.2 = 0 ∨ (x ≠ 0 ∧ L r.2 ≠ []))
  | 0, _, _, _, _, _ => Ens.none
  | fuel + 1, s, x, prev, k, h => by
    unfold findActive
    refine Ens.bind (updateFuture_mv (A := A) x v _ s) fun s1 h1 => Ens.skip fun a _ => Ens.skip fun b _ => Ens.ite (fun _ => Ens.pure ⟨h1.1, h1.2.1, ?_⟩) fun _ => ?_
    · by_cases hx : x = 0
      · exact .inl hx
      · exact .inr ⟨hx, h.resolve_left hx⟩
    · have k1 := k.fr h1.1.fr
      refine Ens.bind (k1.ext' x prev) fun ⟨y, p⟩ hy => (findActive_spec v fuel s1 y p k1 ?_).mono fun r hr => ⟨h1.1.trans hr.1, hr.2.1.trans h1.2.1, ?_⟩
      · exact hy.imp id And.right
      · refine hr.2.2.imp id fun hh => ⟨?_, hh.2⟩
        rintro rfl
        exact (hy.resolve_left hh.1).1 k1.at_zero

theorem activeVertices_spec (k : Lk A s.p.g L) (outer : Bool) (R : Nat) : Ens (s.activeVertices outer R) fun s' => Mv A s s' ∧
    ∃ x y, s'.ic = { s.ic with x := x, y := y } ∧ (x = 0 ∨ (L R ≠ [] ∧ L x ≠ [])) ∧ (y = 0 ∨ (L R ≠ [] ∧ L y ≠ [])) := by
  unfold activeVertices
  refine Ens.bind (k.ext' R true) fun ⟨x, px⟩ hx => Ens.bind (k.ext' R false) fun ⟨y, py⟩ hy => Ens.ite (fun _ => Ens.pure ?_) fun _ => ?_
  · exact ⟨Mv.setIC s _, x, y, rfl, hx, hy⟩
  · refine Ens.bind (findActive_spec s.ic.v _ s x px k (hx.imp id And.right)) fun ⟨s1, x1⟩ h1 => ?_
    refine Ens.bind (findActive_spec s1.ic.v _ s1 y py (k.fr h1.1.fr) (hy.imp id And.right)) fun ⟨s2, y1⟩ h2 => Ens.pure ?_
    refine ⟨(h1.1.trans h2.1).trans (Mv.setIC s2 _), x1, y1, ?_, ?_, ?_⟩
    · show { s2.ic with x := x1, y := y1 } = _
      rw [show s2.ic = s.ic from h2.2.1.trans h1.2.1]
    · exact h1.2.2.imp id fun hh => ⟨(hx.resolve_left hh.1).1, hh.2⟩
    · exact h2.2.2.imp id fun hh => ⟨(hy.resolve_left hh.1).1, hh.2⟩

theorem findPertinent_spec (k : Lk A s.p.g L) : ∀ (fuel w : Nat) (prev : Bool), (w = 0 ∨ L w ≠ []) → Ens (s.findPertinent fuel w prev) fun w' => w' = 0 ∨ L w' ≠ []
  | 0, _, _, _ => Ens.none
  | fuel + 1, w, prev, h => by
    unfold findPertinent
    refine Ens.ite (fun _ => Ens.some (.inl rfl)) fun _ => Ens.skip fun a _ => Ens.ite (fun _ => Ens.pure h) fun _ => ?_
    exact Ens.bind (k.ext' w prev) fun ⟨x, p⟩ hx => findPertinent_spec k fuel x p (hx.imp id And.right)

theorem pertinentVertex_spec (k : Lk A s.p.g L) : Ens s.pertinentVertex fun w => w = 0 ∨ L w ≠ [] := by
  unfold pertinentVertex
  exact Ens.bind (k.ext' s.ic.x true) fun ⟨x, p⟩ hx => findPertinent_spec k _ x p (hx.imp id And.right)

theorem setTypesXY_spec : Ok s.setTypesXY fun s' => Mv A s s' ∧ s'.ic = s.ic ∧ s.ic.r ≠ 0 ∧ s.ic.x ≠ 0 ∧ s.ic.y ≠ 0 ∧ s.ic.w ≠ 0 := by
  unfold setTypesXY
  refine Ok.ite (fun _ => Ok.fail) fun h => Ok.bind (clearTypes_fr (A := A) s.ic.r) fun g1 h1 => Ok.skip fun z1 _ => ?_
  refine Ok.bind (typeSide_fr (A := A) _ _ _ _ _ _ _ _) fun g2 h2 => Ok.skip fun z2 _ => Ok.bind (typeSide_fr (A := A) _ _ _ _ _ _ _ _) fun g3 h3 => ?_
  refine Ok.ret ⟨Mv.setG s (h1.trans (h2.trans h3)), rfl, ?_⟩
  simpa only [not_or] using h

theorem popRoot_fr {g : Graph} (R : Nat) : Ens (popRoot g R) fun r => Fr A g r.2 := by
  unfold popRoot
  refine Ens.ite (fun _ => Ens.some (.refl _ _)) fun _ => Ens.bind (pop_fr (A := A)) fun ⟨_, g1⟩ h1 => (pop_fr (A := A)).mono fun r h2 => h1.trans h2

/-- The vertices of the context have arcs. -/
structure Ctx (L : Nat → List Nat) (ic : IC) : Prop where
  r : L ic.r ≠ []
  x : L ic.x ≠ []
  y : L ic.y ≠ []
  w : L ic.w ≠ []

/-- A context with lists. -/
def InCtx (B : Base) (s : EGraph) (v : Nat) (L fw : Nat → List Nat) : Prop := Part B s L fw ∧ Info B s v ∧ Ctx L s.ic ∧ s.ic.v = v ∧ s.ic.dz = 0

theorem initContext_spec (hB : NoLoop B) (P : Part B s L fw) (I : Info B s v) (outer : Bool) (R : Nat) :
    Ok (s.initContext outer v R) fun s' => ∃ L fw, InCtx B s' v L fw ∧ s'.ic.minorType = 0 := by
  unfold initContext
  refine Ok.bind (popRoot_fr (A := B.A) R) fun ⟨R, g1⟩ h1 => ?_
  have m1 : Mv B.A s ((s.setG g1).setIC { v := v, r := R }) := (Mv.setG s h1).trans (Mv.setIC _ _)
  refine Ok.bind (orientKeep_held hB ⟨L, fw, P.mv m1, I.mv m1, rfl⟩ R) fun s2 h2 => ?_
  obtain ⟨L, fw, P, I, hi⟩ := h2
  refine Ok.bind (clearBicomp_fr (A := B.A) R) fun g3 h3 => ?_
  have m3 := Mv.setG s2 h3
  refine Ok.bind (activeVertices_spec (P.mv m3).lk outer R) fun s4 h4 => ?_
  obtain ⟨m4, x, y, hic, hx, hy⟩ := h4
  have P4 := (P.mv m3).mv m4
  have I4 := (I.mv m3).mv m4
  refine Ok.bind (pertinentVertex_spec P4.lk) fun w hw => ?_
  have m5 : Mv B.A s4 (s4.setIC { s4.ic with w := w }) := Mv.setIC _ _
  refine (setTypesXY_spec (A := B.A)).mono fun s6 h6 => ?_
  obtain ⟨m6, hic6, hr6, hx6, hy6, hw6⟩ := h6
  have e : (s4.setIC { s4.ic with w := w }).ic = { v := v, r := R, x := x, y := y, w := w } := by
    show { s4.ic with w := w } = _
    rw [hic]
    show ({ ({ s2.ic with x := x, y := y } : IC) with w := w } : IC) = _
    rw [hi]
    rfl
  rw [e] at hic6 hr6 hx6 hy6 hw6
  refine ⟨L, fw, ⟨(P4.mv m5).mv m6, (I4.mv m5).mv m6, ?_, by rw [hic6], by rw [hic6]⟩, by rw [hic6]⟩
  rw [hic6]
  exact ⟨(hx.resolve_left hx6).1, (hx.resolve_left hx6).2, (hy.resolve_left hy6).2, hw.resolve_left hw6⟩

/-- A context with the kind of the minor. -/
def Chosen (B : Base) (s : EGraph) (v : Nat) (L fw : Nat → List Nat) : Prop := InCtx B s v L fw ∧ (s.ic.minorType &&& 16 ≠ 0 → L s.ic.z ≠ [])

theorem InCtx.mv {s' : EGraph} (h : InCtx B s v L fw) (m : Mv B.A s s') (hr : s'.ic.r = s.ic.r) (hx : s'.ic.x = s.ic.x) (hy : s'.ic.y = s.ic.y)
    (hw : s'.ic.w = s.ic.w) (hv : s'.ic.v = s.ic.v) (hd : s'.ic.dz = s.ic.dz) : InCtx B s' v L fw :=
  ⟨h.1.mv m, h.2.1.mv m, ⟨hr ▸ h.2.2.1.r, hx ▸ h.2.2.1.x, hy ▸ h.2.2.1.y, hw ▸ h.2.2.1.w⟩, hv.trans h.2.2.2.1, hd.trans h.2.2.2.2⟩

theorem InCtx.minor (h : InCtx B s v L fw) (h0 : s.ic.minorType = 0) {m : Nat} (hm : m &&& 16 ≠ 0 → L s.ic.z ≠ []) : Chosen B (s.addMinor m) v L fw := by
  refine ⟨h.mv (Mv.setIC _ _) rfl rfl rfl rfl rfl rfl, ?_⟩
  show (s.ic.minorType ||| m) &&& 16 ≠ 0 → L s.ic.z ≠ []
  rw [h0, Nat.zero_or]; exact hm

theorem findBelow_spec : ∀ (fuel : Nat) (s : EGraph) (z : Nat) (prev : Bool), Lk A s.p.g L → (z = 0 ∨ L z ≠ []) →
    Ens (findBelow fuel s z prev) fun r => Mv A s r.1 ∧ r.1.ic = s.ic ∧ (r.2 = 0 ∨ L r.2 ≠ [])
  | 0, _, _, _, _, _ => Ens.none
  | fuel + 1, s, z, prev, k, h => by
    unfold findBelow
    refine Ens.ite (fun _ => Ens.some ⟨.refl _ _, rfl, .inl rfl⟩) fun _ => Ens.bind (updateFuture_mv (A := A) z s.ic.v _ s) fun s1 h1 => Ens.skip fun b _ => ?_
    have k1 := k.fr h1.1.fr
    refine Ens.ite (fun _ => Ens.pure ⟨h1.1, h1.2.1, h⟩) fun _ => Ens.bind (k1.ext' z prev) fun ⟨y, p⟩ hy => ?_
    exact (findBelow_spec fuel s1 y p k1 (hy.imp id And.right)).mono fun r hr => ⟨h1.1.trans hr.1, hr.2.1.trans h1.2.1, hr.2.2⟩

theorem belowXYPath_spec (k : Lk A s.p.g L) : Ens s.belowXYPath fun r => Mv A s r.1 ∧ r.1.ic = s.ic ∧ (r.2 = 0 ∨ L r.2 ≠ []) := by
  unfold belowXYPath
  exact Ens.bind (k.ext' s.ic.px true) fun ⟨y, p⟩ hy => findBelow_spec _ s y p k (hy.imp id And.right)

/-- The search for the path between x and y. -/
theorem closest_ok (h : InCtx B s v L fw) : Ens (s.closestXYPath s.ic.r) fun r => r.2 = true → InCtx B r.1 v L fw ∧ r.1.ic.minorType = s.ic.minorType := by
  refine (closestXYPath_spec h.1.lk h.2.2.1.r fun _ => h.2.2.1.w).mono fun r hr ho => ?_
  obtain ⟨a, b, c, d, e⟩ := hr ho
  exact ⟨h.mv (.of_rest a b) (by rw [e]) (by rw [e]) (by rw [e]) (by rw [e]) (by rw [e]) (by rw [e]), by rw [e]⟩

theorem chooseInner_spec (h : InCtx B s v L fw) (h0 : s.ic.minorType = 0) : Ok s.chooseInner fun s' => Chosen B s' v L fw := by
  unfold chooseInner
  refine Ok.bind (closest_ok h) fun ⟨s1, ok⟩ h1 => Ok.ite (fun _ => Ok.fail) fun hok => ?_
  rw [not_or] at hok
  obtain ⟨h1, hm1⟩ := h1 (by simpa using hok.1)
  have hm1 := hm1.trans h0
  refine Ok.skip fun a _ => Ok.skip fun b _ => Ok.ite (fun _ => Ok.ret (h1.minor hm1 (fun hh => absurd rfl hh))) fun _ => ?_
  refine Ok.bind (markZtoR_fr h1.1.lk) fun ⟨s2, ok2⟩ h2 => Ok.ite (fun _ => Ok.fail) fun _ => ?_
  obtain ⟨a2, b2, z, c2⟩ := h2
  have i2 : InCtx B s2 v L fw := h1.mv (.of_rest a2 b2) (by rw [c2]) (by rw [c2]) (by rw [c2]) (by rw [c2]) (by rw [c2]) (by rw [c2])
  have hm2 : s2.ic.minorType = 0 := by rw [c2]; exact hm1
  refine Ok.ite (fun _ => Ok.ret (i2.minor hm2 (fun hh => absurd rfl hh))) fun _ => Ok.bind (belowXYPath_spec i2.1.lk) fun ⟨s3, z3⟩ h3 => ?_
  obtain ⟨a3, b3, c3⟩ := h3
  have i3 : InCtx B (s3.setIC { s3.ic with z := z3 }) v L fw := by
    have b3 : s3.ic = s2.ic := b3
    refine i2.mv (a3.trans (Mv.setIC _ _)) ?_ ?_ ?_ ?_ ?_ ?_
    · show s3.ic.r = _; rw [b3]
    · show s3.ic.x = _; rw [b3]
    · show s3.ic.y = _; rw [b3]
    · show s3.ic.w = _; rw [b3]
    · show s3.ic.v = _; rw [b3]
    · show s3.ic.dz = _; rw [b3]
  refine Ok.ite (fun hz => Ok.ret (i3.minor ?_ fun _ => c3.resolve_left hz)) fun _ => Ok.fail
  have b3 : s3.ic = s2.ic := b3
  show s3.ic.minorType = 0
  rw [b3]; exact hm2

theorem chooseMinor_spec (hB : NoLoop B) (P : Part B s L fw) (I : Info B s v) (R : Nat) :
    Ok (s.chooseMinor v R) fun s' => ∃ L fw, Chosen B s' v L fw := by
  unfold chooseMinor
  refine Ok.both (initContext_spec hB P I false R) fun s1 h1 => ?_
  obtain ⟨L, fw, h1, h0⟩ := h1
  refine Ok.skip fun u _ => Ok.ite (fun _ => Ok.ret ⟨L, fw, h1.minor h0 (fun hh => absurd rfl hh)⟩) fun _ => Ok.skip fun b _ => ?_
  exact Ok.ite (fun _ => Ok.ret ⟨L, fw, h1.minor h0 (fun hh => absurd rfl hh)⟩) fun _ => (chooseInner_spec h1 h0).mono fun _ h => ⟨L, fw, h⟩

theorem chooseOuter_spec (hB : NoLoop B) (P : Part B s L fw) (I : Info B s v) (R : Nat) :
    Ok (s.chooseOuter v R) fun s' => ∃ L fw, InCtx B s' v L fw := by
  unfold chooseOuter
  refine Ok.both (initContext_spec hB P I true R) fun s1 h1 => ?_
  obtain ⟨L, fw, h1, h0⟩ := h1
  have hm : ∀ m, InCtx B (s1.addMinor m) v L fw := fun m => h1.mv (Mv.setIC _ _) rfl rfl rfl rfl rfl rfl
  refine Ok.skip fun u _ => Ok.ite (fun _ => Ok.ret ⟨L, fw, hm 1⟩) fun _ => Ok.skip fun b _ => ?_
  exact Ok.ite (fun _ => Ok.ret ⟨L, fw, hm 2⟩) fun _ => Ok.ret ⟨L, fw, hm 16⟩

end Verif.Isolate
