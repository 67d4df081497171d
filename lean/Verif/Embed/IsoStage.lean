import Verif.Embed.IsoSeen

/-
The blocked component while an obstruction to an outerplanar embedding is isolated.
-/
namespace Verif.Isolate
open Verif Verif.Embed Verif.Graph Verif.EGraph Verif.Random Verif.Test Function
open Verif.Props (AncEq Anc)

variable {B : Base} {Pl : Plan B} {s s' s0 : EGraph} {G : Gh B.D} {L fw PR : Nat → List Nat} {v c R : Nat} {b0 : Bool} {dn todo st0 xs : List Nat}
  {t : Nat → Nat} {M M' : Nat → Prop}

theorem Base.root_ne (c : Nat) : ∀ k, B.Child k → 1 ≤ c → k ≠ c + B.N := by
  intro k hk h1 hh
  have := hk.2.1
  omega

theorem orientKeep_turn (hB : NoLoop B) (r : Rep0 B s G) (P : Part B s (raw G) fw) (I : Info B s v) (h1 : 1 ≤ c) :
    Ens (s.orientKeep (c + B.N)) fun s' => ∃ dn, Agenda G (c + B.N) [] dn ∧ Turn B G fw v s (G.o (c + B.N)) s.p.g.stack [] dn s' := by
  unfold orientKeep
  refine Ens.bind (P := fun g => g = { s.p.g with stack := 0 :: (c + B.N) :: s.p.g.stack }) (fun g hg => push2_some hg) fun g hg => ?_
  have m : Mv B.A s (s.setG g) := Mv.setG s (by rw [hg]; exact fr_stack _ _)
  have ho : fl (G.o (c + B.N) != G.o (c + B.N)) = 0 := by cases G.o (c + B.N) <;> rfl
  have hL : facing G (G.o (c + B.N)) [] = raw G := by funext x; unfold facing; simp
  refine turnLoop hB r (fun k hk => Base.root_ne c k hk h1) _ _ [c + B.N] [] ⟨?_, I.mv m, ?_, ?_, rfl, rfl, rfl, ?_⟩ ⟨by simp, by simp, ?_, ?_⟩
  · rw [hL]; exact P.mv m
  · intro e; subst hg; rfl
  · intro e; subst hg; rfl
  · subst hg
    show 0 :: (c + B.N) :: s.p.g.stack = _
    rw [List.flatMap_cons, ho]; rfl
  · intro x hx; left; simpa using hx
  · intro k _ hh; cases hh

theorem comp_done (hg : Good B.N B.par B.α G) (ha : Agenda G (c + B.N) [] dn) (hc : G.Live B.N c) : ∀ x, 1 ≤ x → x ≤ B.N → G.cp x = c → x ∈ dn := by
  have hcl : ∀ k, B.Child k → holder G k ∈ dn → k ∈ dn := fun k hk hh => by simpa using ha.closed k hk hh
  intro x
  induction x using Nat.strong_induction_on with
  | _ x ih =>
    intro h1 h2 hx
    by_cases hl : G.Live B.N x
    · have : x = c := by rw [← hg.own x hl]; exact hx
      subst this
      have h3 := hg.root x hl
      refine hcl x ⟨h1, h2, h3.2.1⟩ ?_
      rw [holder_live hl]
      simpa using ha.root
    · have hp : B.par x ≠ 0 := by
        intro hp
        have := hg.top x h1 h2 hp
        rw [hx] at this
        subst this
        exact hl hc
      have hlt := B.par_lt x h1 h2
      have hd : G.L (x + B.N) = [] := by
        by_contra hh
        exact hl ⟨h1, hh⟩
      refine hcl x ⟨h1, h2, hp⟩ ?_
      rw [holder_dead hd]
      refine ih _ hlt (by omega) (by omega) ?_
      rw [← hg.joined x h1 h2 hp hl]; exact hx

theorem Cyc.ext {fo ba fo' ba' : Nat → Nat} (h : Cyc L fo ba R xs) (h1 : ∀ x ∈ R :: xs, fo' x = fo x) (h2 : ∀ x ∈ R :: xs, ba' x = ba x) : Cyc L fo' ba' R xs := by
  have hm : ∀ x ∈ R :: xs ++ [R], x ∈ R :: xs := by intro x hx; simp at hx ⊢; tauto
  refine ⟨h.nodup, ?_, ?_, h.ne⟩
  · have := h.chain
    rw [List.isChain_iff_forall_rel_of_append_cons_cons] at this ⊢
    intro a b l₁ l₂ he
    rw [h1 a (hm a (by rw [he]; simp)), h2 b (hm b (by rw [he]; simp))]
    exact this he
  · intro x hx
    rw [h1 x hx, h2 x hx]; exact h.ends x hx

/-- The outer face of the component once its vertices are oriented like the root. -/
theorem cyc_facing (st : St Pl s G fw PR v) (rg : Rings B s G) (hap : B.ap = true) (hc : G.Live B.N c) (ha : Agenda G (c + B.N) [] dn) :
    ∃ xs, Cyc (facing G (G.o (c + B.N)) dn) (fun x => endIn false (facing G (G.o (c + B.N)) dn x)) (fun x => endIn true (facing G (G.o (c + B.N)) dn x)) (c + B.N) xs ∧
      (∀ x ∈ xs, 1 ≤ x ∧ x ≤ B.N ∧ G.cp x = c) ∧ ∀ x ∈ G.X c, x ∈ xs := by
  have h0 := cyc_of_tight st hap hc (rg c hc).tight
  have hbd := st.good.bd c hc
  have hd : ∀ x ∈ (c + B.N) :: G.X c, facing G (G.o (c + B.N)) dn x = dir (G.o (c + B.N)) (lst G x) := by
    intro x hx
    have hraw : raw G x = dir (G.o x) (lst G x) := rfl
    unfold facing
    rcases List.mem_cons.1 hx with rfl | hx
    · rw [if_neg (by simp), hraw]
    · obtain ⟨h1, h2, h3⟩ := hbd x hx
      have hm := comp_done st.good ha hc x h1 h2 h3
      rw [hraw]
      cases G.o x <;> cases G.o (c + B.N) <;> simp [hm, dir]
  have hco : ∀ x, facing G (G.o (c + B.N)) dn x = lst G x ∨ facing G (G.o (c + B.N)) dn x = (lst G x).reverse := by
    intro x
    unfold facing raw
    change (if _ then (dir (G.o x) (lst G x)).reverse else dir (G.o x) (lst G x)) = _ ∨ (if _ then (dir (G.o x) (lst G x)).reverse else dir (G.o x) (lst G x)) = _
    split <;> cases G.o x <;> simp [dir]
  cases hb : G.o (c + B.N) with
  | false =>
    rw [hb] at hd hco
    refine ⟨G.X c, (h0.congr hco).ext ?_ ?_, hbd, fun _ h => h⟩ <;> intro x hx <;> rw [hd x hx] <;> simp [dir]
  | true =>
    rw [hb] at hd hco
    have hm : ∀ x ∈ (c + B.N) :: (G.X c).reverse, x ∈ (c + B.N) :: G.X c := by intro x hx; simpa using hx
    refine ⟨(G.X c).reverse, (h0.rev.congr hco).ext ?_ ?_, fun x hx => hbd x (List.mem_reverse.1 hx), fun x hx => List.mem_reverse.2 hx⟩ <;>
      intro x hx <;> rw [hd x (hm x hx)] <;> simp [dir, endIn]

/-- What does not change while the obstruction is marked. -/
structure Stage (Pl : Plan B) (G : Gh B.D) (fw PR : Nat → List Nat) (v c : Nat) (xs : List Nat) (L : Nat → List Nat) (t : Nat → Nat) : Prop where
  good : Good B.N B.par B.α G
  live : G.Live B.N c
  cyc : Cyc L (fun x => endIn false (L x)) (fun x => endIn true (L x)) (c + B.N) xs
  inn : ∀ x ∈ xs, 1 ≤ x ∧ x ≤ B.N ∧ G.cp x = c
  foot : ∀ k, B.Child k → twin (B.ta k) ∈ L k
  hold : ∀ k, B.Child k → B.ta k ∈ L (holder G k)
  typ : ∀ e, B.A e → (t e &&& 14 = 6 ↔ ∃ k, B.Child k ∧ e = twin (B.ta k))
  reg : ∀ z, ∀ k ∈ PR z, G.Live B.N k ∧ B.par k = z ∧ v < z
  sub : ∀ u, (fw u).Sublist (Pl.fw0 u)
  ring : ∀ a ∈ xs, ∀ e ∈ L a, ∃ b ∈ (c + B.N) :: xs, twin e ∈ L b

/-- The state while the obstruction is marked: `M` are the marked arcs. -/
structure Play (Pl : Plan B) (fw PR : Nat → List Nat) (v : Nat) (L : Nat → List Nat) (t : Nat → Nat) (s : EGraph) (M : Nat → Prop) : Prop where
  part : Part B s L fw
  tag : Tag B.A t M s.p.g
  pe : ∀ x, 1 ≤ x → x ≤ B.N → pe s x ≠ 0 → pe s x ∈ fw v ∧ Pl.nb (pe s x) = x
  prl : Lists s.roots (pr s) B.N PR

theorem Play.mv (h : Play Pl fw PR v L t s M) (m : Mv B.A s s') (hr : s'.roots = s.roots) (ht : Tag B.A t M' s'.p.g) : Play Pl fw PR v L t s' M' := by
  have hpe : ∀ x, Embed.pe s' x = Embed.pe s x := fun x => by obtain ⟨k, hk⟩ := m.vi x; unfold Embed.pe; rw [hk]
  have hpr : ∀ x, pr s' x = pr s x := fun x => by obtain ⟨k, hk⟩ := m.vi x; unfold pr; rw [hk]
  refine ⟨h.part.mv m, ht, ?_, ?_⟩
  · intro x; rw [hpe]; exact h.pe x
  · rw [hr]; exact h.prl.congr rfl (fun z _ _ => hpr z) fun _ _ _ => ⟨rfl, rfl⟩

theorem Play.setIC (h : Play Pl fw PR v L t s M) (ic : IC) : Play Pl fw PR v L t (s.setIC ic) M := h.mv (Mv.setIC _ _) rfl h.tag

/-- The vertices `l` from `d` up to but without `anc`. -/
def Climb (B : Base) (anc : Nat) : Nat → List Nat → Prop
  | d, [] => d = anc
  | d, k :: l => k = d ∧ B.Child d ∧ Climb B anc (B.par d) l

/-- The arcs of the tree edges above the vertices of a list. -/
def Trail (B : Base) (l : List Nat) (e : Nat) : Prop := ∃ k ∈ l, e = B.ta k ∨ e = twin (B.ta k)

theorem parentArc_typ (k : Lk B.A s.p.g L) {d : Nat} : ∀ (fuel e : Nat), (e = 0 ∨ e ∈ L d) → Ens (parentArc s.p.g fuel e) fun e' => e' = 0 ∨ (e' ∈ L d ∧ (s.p.g.E e').flags &&& 14 = 6)
  | 0, e, _ => by unfold parentArc; exact Ens.ite (fun _ => Ens.some (.inl rfl)) fun _ => Ens.none
  | fuel + 1, e, h => by
    unfold parentArc
    have ht : Ens (s.p.g.getType e) fun t => t = (s.p.g.E e).flags &&& 14 := by
      unfold getType; exact Ens.bind (rdE_val e) fun r hr => Ens.pure (by rw [hr])
    refine Ens.ite (fun _ => Ens.some (.inl rfl)) fun h0 => Ens.bind ht fun t ht => ?_
    have h := h.resolve_left h0
    refine Ens.ite (fun h6 => Ens.pure (.inr ⟨h, ht.symm.trans h6⟩)) fun _ => ?_
    refine Ens.bind (getAdj_val e false) fun n hn => parentArc_typ k fuel n ?_
    rw [k.links.elink d false e h] at hn
    by_cases h0 : n = 0
    · exact .inl h0
    · right; subst hn; exact mem_dir.1 (nextIn_mem h0)

theorem Play.typ (g : Stage Pl G fw PR v c xs L t) (h : Play Pl fw PR v L t s M) {e d : Nat} (he : e ∈ L d) (h6 : (s.p.g.E e).flags &&& 14 = 6) :
    B.Child d ∧ e = twin (B.ta d) := by
  have hA := h.part.lk.arc d e he
  have h1 := (h.tag e hA).1
  rw [← type_or_one, h1] at h6
  obtain ⟨k, hk, rfl⟩ := (g.typ e hA).1 h6
  have : k = d := h.part.lk.links.disj _ _ _ (g.foot k hk) he
  subst this
  exact ⟨hk, rfl⟩

theorem Part.primary (P : Part B s L fw) {x : Nat} (hx : B.N < x) : Ens (s.primaryOf x) fun z => x - B.N ≤ B.N ∧ z = B.par (x - B.N) := by
  unfold primaryOf childOf
  rw [P.N]
  refine Ens.bind (P := fun d => d = x - B.N) (Ens.ite (fun _ => Ens.some rfl) fun _ => Ens.none) fun d hd => ?_
  subst hd
  unfold PGraph.getParent
  refine Ens.bind (rdVI_val _) fun r hr => Ens.pure ?_
  have h1 := hr.1
  rw [P.N] at h1
  exact ⟨by omega, by rw [hr.2]; exact P.parent _ (by omega) (by omega)⟩

theorem markDFSLoop_play (g : Stage Pl G fw PR v c xs L t) {anc : Nat} (ha : anc ≤ B.N) : ∀ (fuel : Nat) (s : EGraph) (d : Nat) (M : Nat → Prop),
    Play Pl fw PR v L t s M → Ok (markDFSLoop anc fuel s d) fun s' => s'.ic = s.ic ∧
      ∃ l, Climb B anc (B.home d) l ∧ Play Pl fw PR v L t s' (fun e => M e ∨ Trail B l e)
  | 0, _, _, _, _ => Ens.none
  | fuel + 1, s, d, M, h => by
    unfold markDFSLoop
    refine Ok.ite (fun hd => Ok.ret ⟨rfl, [], ?_, h.mv (.refl _ _) rfl (h.tag.mono fun e _ => ?_)⟩) fun hd => Ok.ite (fun _ => Ok.fail) fun hd0 => ?_
    · show B.home d = anc
      rw [B.home_le (by omega)]; exact hd
    · unfold Trail; simp
    refine Ok.ite (fun hN => ?_) fun hN => ?_
    · rw [h.part.N] at hN
      refine Ok.bind (h.part.primary hN) fun u hu => Ok.bind ((setVisited_fr (A := B.A) u).and (setVisited_sameE u)) fun g1 h1 => ?_
      have hp := h.mv (Mv.setG s h1.1) rfl (h.tag.congr h1.2)
      refine (markDFSLoop_play g ha fuel (s.setG g1) u M hp).mono ?_
      intro r hr
      obtain ⟨h2, l, h3, h4⟩ := hr
      refine ⟨h2, l, ?_, h4⟩
      have hle : u ≤ B.N := by
        rw [hu.2]
        have := B.par_lt (d - B.N) (by omega) hu.1
        omega
      rw [B.home_le hle] at h3
      unfold Base.home
      rw [if_neg (by omega), ← hu.2]; exact h3
    · rw [h.part.N] at hN
      have k := h.part.lk
      refine Ok.bind (k.first d false) fun a ha' => Ok.bind (parentArc_typ k (d := d) _ a ?_) fun e he => ?_
      · rcases ha' with ⟨_, h⟩ | ⟨_, h⟩
        · exact .inl h
        · exact .inr h
      have hj : ∀ u, (u = 0 ∨ (e ∈ L d ∧ (s.p.g.E e).flags &&& 14 = 6 ∧ u = (s.p.g.E e).nbr)) → Ok (if u = 0 then Pure.pure (s, false) else do
          let g ← markEdge s.p.g e
          let g ← g.setVisited u
          markDFSLoop anc fuel (s.setG g) u) fun s' => s'.ic = s.ic ∧
            ∃ l, Climb B anc (B.home d) l ∧ Play Pl fw PR v L t s' (fun e => M e ∨ Trail B l e) := by
        intro u hu
        refine Ok.ite (fun _ => Ok.fail) fun h0 => ?_
        obtain ⟨h1, h2, h3⟩ := hu.resolve_left h0
        obtain ⟨hk, rfl⟩ := h.typ g h1 h2
        have hu' : u = holder G d := by
          have := k.owner _ _ (g.hold d hk)
          rw [h3]; exact this
        refine Ok.bind ((k.mark h1).and (markEdge_tag h.tag _)) fun g1 h4 => Ok.bind ((setVisited_fr (A := B.A) u).and (setVisited_sameE u)) fun g2 h5 => ?_
        have hp := h.mv (Mv.setG s (h4.1.trans h5.1)) rfl (h4.2.congr h5.2)
        refine (markDFSLoop_play g ha fuel (s.setG g2) u _ hp).mono ?_
        intro r hr
        obtain ⟨h6, l, h7, h8⟩ := hr
        refine ⟨h6, d :: l, ?_, h8.mv (.refl _ _) rfl (h8.tag.mono fun e _ => ?_)⟩
        · rw [B.home_le hk.2.1]
          refine ⟨rfl, hk, ?_⟩
          have : B.home u = B.par d := by
            rw [hu']
            unfold holder
            split
            · exact B.home_le (by have := B.par_lt d hk.1 hk.2.1; have := hk.2.1; omega)
            · exact B.home_root hk.1
          rw [← this]; exact h7
        · show ((M e ∨ e = twin (B.ta d) ∨ e = twin (twin (B.ta d))) ∨ Trail B l e) ↔ _
          have : Trail B (d :: l) e ↔ (e = B.ta d ∨ e = twin (B.ta d)) ∨ Trail B l e := by unfold Trail; simp
          rw [twin_twin, this]
          tauto
      refine Ok.ite (fun h0 => Ok.bind (getNbr_val e) fun u hu => hj u (.inr ?_)) fun _ => Ok.bind (Ens.some (P := fun u => u = 0) rfl) fun u hu => hj u (.inl hu)
      have := he.resolve_left h0
      exact ⟨this.1, this.2, hu⟩

theorem markDFS_play (g : Stage Pl G fw PR v c xs L t) {anc : Nat} (ha : anc ≤ B.N) (h : Play Pl fw PR v L t s M) (d : Nat) :
    Ok (s.markDFS anc d) fun s' => s'.ic = s.ic ∧ ∃ l, Climb B anc (B.home d) l ∧ Play Pl fw PR v L t s' (fun e => M e ∨ Trail B l e) := by
  unfold markDFS
  have hj : ∀ u, B.home u = B.home d → Ok (s.p.g.setVisited u >>= fun g => markDFSLoop anc (s.p.g.vSize + 1) (s.setG g) u) fun s' => s'.ic = s.ic ∧
      ∃ l, Climb B anc (B.home d) l ∧ Play Pl fw PR v L t s' (fun e => M e ∨ Trail B l e) := by
    intro u hu
    refine Ok.bind ((setVisited_fr (A := B.A) u).and (setVisited_sameE u)) fun g1 h1 => ?_
    rw [← hu]
    exact markDFSLoop_play g ha _ (s.setG g1) u M (h.mv (Mv.setG s h1.1) rfl (h.tag.congr h1.2))
  refine Ok.ite (fun hN => Ok.bind (h.part.primary (by rwa [h.part.N] at hN)) fun u hu => hj u ?_) fun _ => Ok.bind (P := fun u => u = d) (Ens.some rfl) fun u hu => hj u (by rw [hu])
  rw [h.part.N] at hN
  have hle : u ≤ B.N := by
    rw [hu.2]
    have := B.par_lt (d - B.N) (by omega) hu.1
    omega
  rw [B.home_le hle]
  unfold Base.home
  rw [if_neg (by omega), ← hu.2]

end Verif.Isolate
