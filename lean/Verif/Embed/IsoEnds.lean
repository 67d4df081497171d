import Verif.Embed.IsoInit

/-
The connections of an obstruction by edges not yet embedded, and the marking of its paths.
-/
namespace Verif.Isolate
open Verif Verif.Embed Verif.Graph Verif.EGraph Verif.Random Verif.Test Function

variable {A : Nat → Prop} {B : Base} {s s' : EGraph} {L fw : Nat → List Nat} {v : Nat}

theorem lists_next {c : LC.Coll} {hd : Nat → Nat} {n : Nat} {Ls : Nat → List Nat} (h : Lists c hd n Ls) {z y : Nat} (hy : y ∈ Ls z) : c.next y ∈ Ls z := by
  have hr := h.ring z
  obtain ⟨P, Q, he⟩ := List.append_of_mem hy
  cases hL : Ls z with
  | nil => rw [hL] at hy; cases hy
  | cons a t =>
    rw [hL, LC.ring_iff] at hr
    have h2 : a :: (t ++ [a]) = P ++ y :: (Q ++ [a]) := by
      rw [← List.cons_append, ← hL, he]; simp
    rw [h2, List.isChain_append] at hr
    cases Q with
    | nil =>
      have := (List.isChain_cons_cons.1 hr.2.1).1.1
      rw [this]; simp
    | cons b Q =>
      have := (List.isChain_cons_cons.1 hr.2.1).1.1
      rw [this, ← hL, he]; simp

theorem Part.fw_head (P : Part B s L fw) {u : Nat} (h1 : 1 ≤ u) (h2 : u ≤ B.N) : (s.p.VI u).fwdArcList = 0 ∨ (s.p.VI u).fwdArcList ∈ fw u := by
  have := P.fwl.head u h1 h2
  unfold fwh at this
  rw [this]
  cases fw u with
  | nil => exact .inl rfl
  | cons a t => exact .inr (by simp)

theorem Part.fw_next (P : Part B s L fw) {u e : Nat} (h : e ∈ fw u) : Ens (s.p.g.getAdj e false) fun n => n ∈ fw u :=
  (getAdj_val e false).mono fun n hn => by rw [hn]; exact lists_next P.fwl h

/-- A vertex that has an arc once the components are joined. -/
def Up (B : Base) (L : Nat → List Nat) (u : Nat) : Prop := (1 ≤ u ∧ u ≤ B.N) ∧ (L u ≠ [] ∨ Stem B u)

theorem Stem.up {u : Nat} (h : Stem B u) : Up B L u := ⟨h.range, .inr h⟩
theorem Part.up_child (P : Part B s L fw) {c : Nat} (h : B.Child c) : Up B L c := ⟨⟨h.1, h.2.1⟩, .inl (P.full c h).1⟩

theorem leastDesc_spec (P : Part B s L fw) {anc root : Nat} : ∀ (fuel e d : Nat), (e = 0 ∨ e ∈ fw anc) → (d = 0 ∨ ∃ f ∈ fw anc, d = B.own (twin f)) →
    Ens (leastDesc s.p anc root fuel e d) fun d => d = 0 ∨ ∃ f ∈ fw anc, d = B.own (twin f)
  | 0, e, d, _, hd => by unfold leastDesc; exact Ens.ite (fun _ => Ens.some hd) fun _ => Ens.none
  | fuel + 1, e, d, he, hd => by
    unfold leastDesc
    refine Ens.ite (fun _ => Ens.some hd) fun h0 => Ens.bind (getNbr_val e) fun w hw => ?_
    have he := he.resolve_left h0
    refine Ens.bind (P.fw_next he) fun n hn => Ens.skip fun r _ => leastDesc_spec P fuel _ _ ?_ ?_
    · split
      · exact .inl rfl
      · exact .inr hn
    · split
      · exact .inr ⟨e, he, hw.trans (P.nbr anc e he)⟩
      · exact hd

theorem descends_zero {p : PGraph} : ∀ (fuel z : Nat), z ≠ 0 → Ens (descends p 0 fuel z) fun b => b = false
  | 0, _, _ => Ens.none
  | fuel + 1, z, hz => by
    unfold descends
    rw [if_neg hz]
    refine Ens.skip fun n _ => Ens.ite (fun _ => Ens.pure rfl) fun h => descends_zero fuel n fun hn => h (.inl hn)

theorem edgeToSubtree_spec (P : Part B s L fw) {anc : Nat} (ha : 1 ≤ anc) (root : Nat) : Ens (s.edgeToSubtree anc root) fun r =>
    r.2 = true → (Stem B anc ∧ B.Child r.1) ∧ root ≠ 0 := by
  unfold edgeToSubtree
  have hj : ∀ root', (root = 0 → root' = 0) → Ens (s.p.rdVI anc >>= fun r => leastDesc s.p anc root' s.p.g.eSize r.fwdArcList 0 >>= fun d =>
      if d = 0 then Pure.pure (0, false) else descends s.p root' (s.p.g.N + 2) d >>= fun b => Pure.pure (d, b)) fun r =>
        r.2 = true → (Stem B anc ∧ B.Child r.1) ∧ root ≠ 0 := by
    intro root' h0
    refine Ens.bind (rdVI_val anc) fun r hr => ?_
    have hN : anc ≤ B.N := by have := hr.1; rw [P.N] at this; omega
    rw [hr.2]
    refine Ens.bind (leastDesc_spec P _ _ 0 (P.fw_head ha hN) (.inl rfl)) fun d hd => Ens.ite (fun _ => Ens.pure fun h => by cases h) fun hd0 => ?_
    obtain ⟨f, hf, rfl⟩ := hd.resolve_left hd0
    refine Ens.skip fun b hb => Ens.pure fun hb' => ⟨⟨P.up _ f hf, P.down _ f hf⟩, fun h => ?_⟩
    rw [h0 h] at hb
    have hb' : b = true := hb'
    rw [descends_zero _ _ hd0 b hb] at hb'
    cases hb'
  refine Ens.ite (fun h => Ens.skip fun r _ => hj r fun h0 => ?_) fun _ => Ens.bind (P := fun r => r = root) (Ens.some rfl) fun r hr => hj r fun h => hr.trans h
  omega

theorem leastOver_spec (P : Part B s L fw) (I : Info B s v) (cut : Nat) : ∀ (fuel c a f : Nat), Ens (s.leastOver cut fuel c a f) fun r => r.1 = a ∨ 1 ≤ r.1
  | 0, c, a, f => by unfold leastOver; exact Ens.ite (fun _ => Ens.some (.inl rfl)) fun _ => Ens.none
  | fuel + 1, c, a, f => by
    unfold leastOver
    refine Ens.ite (fun _ => Ens.some (.inl rfl)) fun h0 => Ens.skip fun arc _ => ?_
    have : Ens (s.p.getLowpoint c) fun l => 1 ≤ l := by
      unfold PGraph.getLowpoint
      refine Ens.bind (rdVI_val c) fun r hr => Ens.pure ?_
      rw [hr.2]
      have := hr.1
      rw [P.N] at this
      exact I.low c (by omega) (by omega)
    refine Ens.bind this fun low hl => Ens.skip fun n _ => Ens.ite (fun _ => ?_) fun _ => leastOver_spec P I cut fuel n a f
    refine (leastOver_spec P I cut fuel n low c).mono fun r hr => .inr ?_
    rcases hr with h | h <;> omega

theorem Part.pos (P : Part B s L fw) {x : Nat} (h : L x ≠ []) : x ≠ 0 := fun h0 => h (h0 ▸ P.lk.at_zero)

theorem edgeToAncestor_spec (P : Part B s L fw) (I : Info B s v) {cut : Nat} (hc : L cut ≠ []) : Ens (s.edgeToAncestor cut) fun r =>
    r.2.2 = true → Up B L r.1 ∧ Up B L r.2.1 := by
  unfold edgeToAncestor
  refine Ens.bind (rdVI_val cut) fun r hr => ?_
  have hN : cut ≤ B.N := by have := hr.1; rw [P.N] at this; omega
  have h1 : 1 ≤ cut := Nat.one_le_iff_ne_zero.2 (P.pos hc)
  rw [hr.2]
  have hla := I.la cut h1 hN
  have hup : Up B L cut := ⟨⟨h1, hN⟩, .inl hc⟩
  refine Ens.bind (leastOver_spec P I cut _ _ _ _) fun ⟨a, c⟩ ha => Ens.ite (fun h => Ens.pure fun _ => ⟨?_, hup⟩) fun h => ?_
  · show Up B L a
    rw [show a = _ from h]
    rcases hla with h | h
    · rw [h]; exact hup
    · exact h.up
  · refine Ens.bind (edgeToSubtree_spec P (ha.resolve_left h) c) fun ⟨d, ok⟩ hd => Ens.pure fun ho => ?_
    obtain ⟨⟨h1, h2⟩, -⟩ := hd ho
    exact ⟨h1.up, P.up_child h2⟩

theorem edgeToCur_spec (P : Part B s L fw) (I : Info B s s.ic.v) (hv : 1 ≤ s.ic.v) {cut : Nat} (hc : L cut ≠ []) : Ens (s.edgeToCur cut) fun r =>
    r.2 = true → Up B L s.ic.v ∧ Up B L r.1 := by
  unfold edgeToCur
  refine Ens.bind (rdVI_val cut) fun r hr => ?_
  have hN : cut ≤ B.N := by have := hr.1; rw [P.N] at this; omega
  have h1 : 1 ≤ cut := Nat.one_le_iff_ne_zero.2 (P.pos hc)
  rw [hr.2]
  refine Ens.ite (fun h => Ens.pure fun _ => ⟨(I.pe cut h1 hN h).up, ⟨⟨h1, hN⟩, .inl hc⟩⟩) fun _ => ?_
  refine (edgeToSubtree_spec P hv _).mono fun r hr ho => ?_
  obtain ⟨⟨h1, h2⟩, -⟩ := hr ho
  exact ⟨h1.up, P.up_child h2⟩

/-- The ends of the connections. -/
structure Ends (B : Base) (L : Nat → List Nat) (ic : IC) : Prop where
  x : Up B L ic.ux ∧ Up B L ic.dx
  y : Up B L ic.uy ∧ Up B L ic.dy
  w : ic.dw ≠ 0 → Up B L ic.v ∧ Up B L ic.dw
  z : ic.dz ≠ 0 → Up B L ic.uz ∧ Up B L ic.dz

/-- The state in which paths are marked. -/
structure Iso (B : Base) (s : EGraph) (L fw : Nat → List Nat) : Prop where
  part : Part B s L fw
  ctx : Ctx L s.ic
  ends : Ends B L s.ic

/-- What is known of z for minor E. -/
def ZOk (B : Base) (L : Nat → List Nat) (ic : IC) : Prop := ic.minorType &&& 16 ≠ 0 → L ic.z ≠ [] ∧ Up B L ic.uz ∧ Up B L ic.dz

theorem contextB_spec (P : Part B s L fw) (I : Info B s s.ic.v) (hv : 1 ≤ s.ic.v) : Ok s.contextB fun s' => Mv A s s' ∧
    ∃ dw uz dz, s'.ic = { s.ic with dw := dw, uz := uz, dz := dz } ∧ (Up B L s.ic.v ∧ Up B L dw) ∧ Up B L uz ∧ Up B L dz := by
  unfold contextB
  refine Ok.skip fun c _ => ?_
  have : Ens (s.p.getLowpoint c) fun l => c ≠ 0 → 1 ≤ l := by
    unfold PGraph.getLowpoint
    refine Ens.bind (rdVI_val c) fun r hr => Ens.pure fun h0 => ?_
    rw [hr.2]
    have := hr.1
    rw [P.N] at this
    exact I.low c (by omega) (by omega)
  refine Ok.bind this fun uz hu => ?_
  have m1 : Mv B.A s (s.setIC { s.ic with uz := uz }) := Mv.setIC _ _
  refine Ok.bind (edgeToSubtree_spec (P.mv m1) hv c) fun ⟨dw, ok⟩ hd => Ok.ite (fun _ => Ok.fail) fun hok => ?_
  obtain ⟨⟨h1, h2⟩, h3⟩ := hd (by simpa using hok)
  have m2 : Mv B.A (s.setIC { s.ic with uz := uz }) ((s.setIC { s.ic with uz := uz }).setIC { (s.setIC { s.ic with uz := uz }).ic with dw := dw }) := Mv.setIC _ _
  refine Ok.bind (edgeToSubtree_spec ((P.mv m1).mv m2) (hu h3) c) fun ⟨dz, ok⟩ hd => ?_
  refine Ens.pure fun ho => ⟨(Mv.setIC s { s.ic with uz := uz }).trans ((Mv.setIC (s.setIC { s.ic with uz := uz }) _).trans (Mv.setIC _ _)), dw, uz, dz, rfl,
    ⟨h1.up, P.up_child h2⟩, ?_⟩
  obtain ⟨⟨h4, h5⟩, -⟩ := hd ho
  exact ⟨h4.up, P.up_child h5⟩

theorem contextOther_spec (P : Part B s L fw) (I : Info B s s.ic.v) (hv : 1 ≤ s.ic.v) (hw : L s.ic.w ≠ []) (hz : s.ic.minorType &&& 16 ≠ 0 → L s.ic.z ≠ []) :
    Ok s.contextOther fun s' => Mv A s s' ∧
    ∃ dw uz dz, s'.ic = { s.ic with dw := dw, uz := uz, dz := dz } ∧ (Up B L s.ic.v ∧ Up B L dw) ∧ ((s.ic.minorType &&& 16 = 0 ∧ dz = s.ic.dz) ∨ Up B L uz ∧ Up B L dz) := by
  unfold contextOther
  refine Ok.bind (edgeToCur_spec P I hv hw) fun ⟨dw, ok⟩ hd => Ok.ite (fun _ => Ok.fail) fun hok => ?_
  have hd := hd (by simpa using hok)
  have m1 : Mv B.A s (s.setIC { s.ic with dw := dw }) := Mv.setIC _ _
  refine Ok.ite (fun h16 => ?_) fun h16 => Ok.ret ⟨Mv.setIC _ _, dw, s.ic.uz, s.ic.dz, rfl, hd, .inl ⟨not_not.1 h16, rfl⟩⟩
  refine Ok.bind (edgeToAncestor_spec (P.mv m1) (I.mv m1) (hz h16)) fun ⟨u, d, ok⟩ hh => Ens.pure fun ho => ?_
  exact ⟨(Mv.setIC _ _).trans (Mv.setIC _ _), dw, u, d, rfl, hd, .inr (hh ho)⟩

theorem isolatorContext_spec (h : Chosen B s v L fw) (hv : 1 ≤ v) : Ok s.isolatorContext fun s' => Iso B s' L fw ∧ ZOk B L s'.ic := by
  obtain ⟨⟨P, I, C, rfl, hdz⟩, hz⟩ := h
  unfold isolatorContext
  refine Ok.bind (edgeToAncestor_spec P I C.x) fun ⟨ux, dx, ok⟩ hx => Ok.ite (fun _ => Ok.fail) fun hok => ?_
  have hx := hx (by simpa using hok)
  have m1 : Mv B.A s (s.setIC { s.ic with ux := ux, dx := dx }) := Mv.setIC _ _
  refine Ok.bind (edgeToAncestor_spec (P.mv m1) (I.mv m1) C.y) fun ⟨uy, dy, ok⟩ hy => Ok.ite (fun _ => Ok.fail) fun hok => ?_
  have hy := hy (by simpa using hok)
  have m2 : Mv B.A s (s.setIC { s.ic with ux := ux, dx := dx, uy := uy, dy := dy }) := Mv.setIC _ _
  have P2 := P.mv m2
  have I2 := I.mv m2
  refine Ok.ite (fun _ => ?_) fun _ => ?_
  · refine (contextB_spec (A := B.A) P2 I2 hv).mono fun s' ⟨m, dw, uz, dz, e, h1, h2⟩ => ?_
    refine ⟨⟨P2.mv m, ?_, ?_⟩, ?_⟩
    · rw [e]; exact ⟨C.r, C.x, C.y, C.w⟩
    · rw [e]; exact ⟨hx, hy, fun _ => h1, fun _ => h2⟩
    · rw [e]; exact fun h16 => ⟨hz h16, h2⟩
  · refine (contextOther_spec (A := B.A) P2 I2 hv C.w hz).mono fun s' ⟨m, dw, uz, dz, e, h1, h2⟩ => ?_
    refine ⟨⟨P2.mv m, ?_, ?_⟩, ?_⟩
    · rw [e]; exact ⟨C.r, C.x, C.y, C.w⟩
    · rw [e]
      exact ⟨hx, hy, fun _ => h1, fun h0 => h2.resolve_left fun hh => h0 (hh.2.trans hdz)⟩
    · rw [e]; exact fun h16 => ⟨hz h16, h2.resolve_left fun hh => h16 hh.1⟩

theorem Iso.mv (h : Iso B s L fw) (m : Mv B.A s s') (hi : s'.ic = s.ic) : Iso B s' L fw := ⟨h.part.mv m, hi ▸ h.ctx, hi ▸ h.ends⟩

theorem Iso.markExt (h : Iso B s L fw) {a b : Nat} (hab : L a ≠ [] ∨ b ≠ 0) : Ok (s.markExt a b) fun s' => Iso B s' L fw :=
  (markExt_fr h.part.lk hab).mono fun _ hr _ => h.mv (.of_rest hr.1 hr.2.1) hr.2.2
theorem Iso.markDFS (h : Iso B s L fw) (a b : Nat) : Ok (s.markDFS a b) fun s' => Iso B s' L fw :=
  (markDFS_fr h.part.lk a b).mono fun _ hr _ => h.mv (.of_rest hr.1 hr.2.1) hr.2.2
theorem Iso.markPaths (h : Iso B s L fw) : Ok s.markPaths fun s' => Iso B s' L fw := by
  unfold EGraph.markPaths
  refine Ok.both (h.markDFS _ _) fun s1 h1 => Ok.both (h1.markDFS _ _) fun s2 h2 => Ok.both (Ok.ite (fun _ => h2.markDFS _ _) fun _ => Ok.ret h2) fun s3 h3 => ?_
  exact Ok.ite (fun _ => h3.markDFS _ _) fun _ => Ok.ret h3

theorem Iso.r (h : Iso B s L fw) : s.ic.r ≠ 0 := h.part.pos h.ctx.r
theorem Iso.w (h : Iso B s L fw) : s.ic.w ≠ 0 := h.part.pos h.ctx.w
theorem Iso.y (h : Iso B s L fw) : s.ic.y ≠ 0 := h.part.pos h.ctx.y

theorem Iso.markC (h : Iso B s L fw) : Ok s.markC fun s' => Iso B s' L fw := by
  unfold EGraph.markC
  refine Ok.skip fun t _ => Ok.ite (fun _ => Ok.skip fun u _ => h.markExt (.inl h.ctx.r)) fun _ => h.markExt (.inl h.ctx.x)

end Verif.Isolate
