import Verif.Embed.IsoFrame

/-
Walks along faces and lists while an obstruction is isolated.
-/
namespace Verif.Isolate
open Verif Verif.Embed Verif.Graph Verif.EGraph Verif.Random Verif.Test Function

variable {A : Nat → Prop} {g g' : Graph} {L : Nat → List Nat}

/-- One step along the outer face. -/
theorem Lk.ext (k : Lk A g L) (x : Nat) (p : Bool) : Ens (extNext g x p) fun r => (L x ≠ [] → L r.1 ≠ []) ∧ (L x = [] → r.1 = 0) := by
  unfold extNext
  refine Ens.bind (k.first x (!p)) fun a ha => Ens.bind (getNbr_val a) fun n hn => Ens.skip fun f _ => Ens.skip fun l _ => Ens.pure ?_
  subst hn
  rcases ha with ⟨h1, rfl⟩ | ⟨_, h1⟩
  · exact ⟨fun h => absurd h1 h, fun _ => by rw [k.zero]⟩
  · exact ⟨fun _ => List.ne_nil_of_mem (k.head h1), fun h => by rw [h] at h1; cases h1⟩

theorem Lk.ext' (k : Lk A g L) (x : Nat) (p : Bool) : Ens (extNext g x p) fun r => r.1 = 0 ∨ (L x ≠ [] ∧ L r.1 ≠ []) :=
  (k.ext x p).mono fun _ h => by
    by_cases hx : L x = []
    · exact .inl (h.2 hx)
    · exact .inr ⟨hx, h.1 hx⟩

theorem Lk.next (k : Lk A g L) {x e : Nat} (he : e ∈ L x) : Ens (nextCirc g e) fun n => n ∈ L x := by
  unfold nextCirc
  refine Ens.bind (getAdj_val e false) fun n hn => ?_
  rw [k.links.elink x false e he] at hn
  refine Ens.ite (fun h0 => Ens.pure ?_) fun _ => Ens.bind (getNbr_val _) fun m hm => ?_
  · subst hn; exact mem_dir.1 (nextIn_mem h0)
  · rw [hm, k.owner x e he]
    refine (k.first x false).mono fun a ha => ?_
    rcases ha with ⟨h, _⟩ | ⟨_, h⟩
    · rw [h] at he; cases he
    · exact h

theorem Lk.prev (k : Lk A g L) {x e : Nat} (he : e ∈ L x) : Ens (prevCirc g e) fun n => n ∈ L x := by
  unfold prevCirc
  refine Ens.bind (getAdj_val e true) fun n hn => ?_
  rw [k.links.elink x true e he] at hn
  refine Ens.ite (fun h0 => Ens.pure ?_) fun _ => Ens.bind (getNbr_val _) fun m hm => ?_
  · subst hn; exact mem_dir.1 (nextIn_mem h0)
  · rw [hm, k.owner x e he]
    refine (k.first x true).mono fun a ha => ?_
    rcases ha with ⟨h, _⟩ | ⟨_, h⟩
    · rw [h] at he; cases he
    · exact h

theorem Lk.mark (k : Lk A g L) {x e : Nat} (he : e ∈ L x) : Ens (markEdge g e) (Fr A g) := by
  obtain ⟨y, hy⟩ := k.pair x e he
  exact markEdge_fr (k.arc x e he) (k.arc y _ hy)

/-- From a vertex without arcs the walk does not come to an end. -/
theorem markExtLoop_lost {last : Nat} (hl : last ≠ 0) : ∀ (fuel : Nat) (g : Graph) (z : Nat) (prev : Bool),
    (∀ b, (g.V z).link b = 0) → (∀ b, (g.V 0).link b = 0) → (g.E 0).nbr = 0 → markExtLoop last fuel g z prev = none
  | 0, _, _, _, _, _, _ => rfl
  | fuel + 1, g, z, prev, hz, h0, hn => by
    have : Ens (markExtLoop last (fuel + 1) g z prev) fun _ => False := by
      unfold markExtLoop
      have he : Ens (extNext g z prev) fun r => r.1 = 0 := by
        unfold extNext
        refine Ens.bind (getArc_val z _) fun a ha => Ens.bind (getNbr_val a) fun n hn' => Ens.skip fun f _ => Ens.skip fun l _ => Ens.pure ?_
        show n = 0
        rw [hn', ha.2, hz, hn]
      refine Ens.bind he fun ⟨z', p'⟩ hz' => ?_
      obtain rfl : z' = 0 := hz'
      refine Ens.bind (getArc_val 0 p') fun a ha => ?_
      have ha : a = 0 := by rw [ha.2, h0]
      subst ha
      refine Ens.bind (markEdge_fr (A := fun _ => True) trivial trivial) fun g1 h1 => ?_
      refine Ens.bind (setVisited_fr (A := fun _ => True) 0) fun g2 h2 => Ens.ite (fun h => absurd h.symm hl) fun _ => ?_
      have hs := (h1.trans h2).strip
      rw [markExtLoop_lost hl fuel g2 0 p' (fun b => by rw [strip_vlink hs]; exact h0 b) (fun b => by rw [strip_vlink hs]; exact h0 b)
        (by rw [strip_nbr hs]; exact hn)]
      exact Ens.none
    cases hh : markExtLoop last (fuel + 1) g z prev with
    | none => rfl
    | some a => exact (this a hh).elim

theorem Lk.link_nil (k : Lk A g L) {z : Nat} (hz : L z = []) (hv : z < g.vSize) (b : Bool) : (g.V z).link b = 0 := by
  rw [k.links.vlink z b hv, hz]; cases b <;> rfl

theorem markExtLoop_fr {last : Nat} : ∀ (fuel : Nat) (g : Graph) (z : Nat) (prev : Bool), Lk A g L → (L z ≠ [] ∨ last ≠ 0) →
    Ens (markExtLoop last fuel g z prev) (Fr A g)
  | 0, _, _, _, _, _ => Ens.none
  | fuel + 1, g, z, prev, k, h => by
    by_cases hz : L z = []
    · by_cases hv : z < g.vSize
      · rw [markExtLoop_lost (h.resolve_left (fun hh => hh hz)) (fuel + 1) g z prev (k.link_nil hz hv)
          (k.link_nil k.at_zero (by unfold vSize; omega)) (by rw [k.zero])]
        exact Ens.none
      · unfold markExtLoop
        refine Ens.bind (P := fun _ => False) ?_ fun _ hf => hf.elim
        unfold extNext
        exact Ens.bind (getArc_val z _) fun a ha => absurd ha.1 hv
    · unfold markExtLoop
      refine Ens.bind (k.ext z prev) fun ⟨z', p'⟩ hz' => ?_
      have hz' : L z' ≠ [] := hz'.1 hz
      refine Ens.bind (k.first z' p') fun a ha => ?_
      have ha : a ∈ L z' := by
        rcases ha with ⟨h, _⟩ | ⟨_, h⟩
        · exact absurd h hz'
        · exact h
      refine Ens.bind (k.mark ha) fun g1 h1 => Ens.bind (setVisited_fr (A := A) z') fun g2 h2 => ?_
      refine Ens.ite (fun _ => Ens.pure (h1.trans h2)) fun _ => ?_
      exact (markExtLoop_fr fuel g2 z' p' (k.fr (h1.trans h2)) (.inl hz')).mono fun _ h => (h1.trans h2).trans h

theorem toRoot_fr {R : Nat} : ∀ (fuel : Nat) (g : Graph) (Z next : Nat), Lk A g L → (∃ x, next ∈ L x) →
    Ens (toRoot R fuel g Z next (twin next)) fun r => Fr A g r.1
  | 0, _, _, _, _, _ => Ens.none
  | fuel + 1, g, Z, next, k, ⟨x, hx⟩ => by
    unfold toRoot
    refine Ens.ite (fun _ => Ens.some (Fr.refl _ _)) fun _ => Ens.skip fun t _ => Ens.ite (fun _ => Ens.pure (Fr.refl _ _)) fun _ => ?_
    obtain ⟨y, hy⟩ := k.pair x next hx
    refine Ens.skip fun Z' _ => Ens.bind (setEdgeVisited_fr (k.arc x _ hx)) fun g1 h1 => Ens.bind (setEdgeVisited_fr (k.arc y _ hy))
      fun g2 h2 => Ens.bind (setVisited_fr (A := A) Z') fun g3 h3 => ?_
    have hf := (h1.trans h2).trans h3
    refine Ens.bind ((k.fr hf).prev hy) fun n hn => ?_
    exact (toRoot_fr fuel g3 Z' n (k.fr hf) ⟨y, hn⟩).mono fun _ h => hf.trans h

theorem edgeVisited_val (e : Nat) : Ens (edgeVisited g e) fun m => m = true → (g.E e).flags ≠ 0 := by
  unfold edgeVisited
  refine Ens.bind (rdE_val e) fun r hr => Ens.pure ?_
  subst hr
  intro h h0
  rw [h0] at h
  simp at h

theorem firstMarked_mem (k : Lk A g L) (z : Nat) : ∀ (fuel e : Nat), (e = 0 ∨ e ∈ L z) → Ens (firstMarked g z fuel e) fun e' => e' = 0 ∨ e' ∈ L z
  | 0, _, _ => Ens.none
  | fuel + 1, e, h => by
    unfold firstMarked
    refine Ens.skip fun a _ => Ens.ite (fun _ => Ens.pure h) fun _ => Ens.skip fun m _ => Ens.ite (fun _ => Ens.pure h) fun _ => ?_
    refine Ens.bind (getAdj_val e true) fun n hn => firstMarked_mem k z fuel n ?_
    rcases h with rfl | h
    · left; rw [hn, k.zero]; rfl
    · rw [k.links.elink z true e h] at hn
      by_cases h0 : n = 0
      · exact .inl h0
      · right; subst hn; exact mem_dir.1 (nextIn_mem h0)

theorem alongPath_mem (k : Lk A g L) : ∀ (fuel e : Nat), (∃ x, e ∈ L x) → Ens (alongPath g fuel e) fun e' => ∃ x, e' ∈ L x
  | 0, _, _ => Ens.none
  | fuel + 1, e, ⟨x, h⟩ => by
    unfold alongPath
    refine Ens.skip fun m _ => Ens.ite (fun _ => ?_) fun _ => Ens.pure ⟨x, h⟩
    obtain ⟨y, hy⟩ := k.pair x e h
    exact Ens.bind (k.prev hy) fun n hn => alongPath_mem k fuel n ⟨y, hn⟩

/-- Everything but the edge store and the context is as before. -/
structure Rest (s s' : EGraph) : Prop where
  vi : s'.p.VI = s.p.VI
  kids : s'.kids = s.kids
  roots : s'.roots = s.roots
  ext : s'.ext = s.ext

theorem Rest.refl (s : EGraph) : Rest s s := ⟨rfl, rfl, rfl, rfl⟩
theorem Rest.trans {s s' s'' : EGraph} (h : Rest s s') (h' : Rest s' s'') : Rest s s'' :=
  ⟨h'.vi.trans h.vi, h'.kids.trans h.kids, h'.roots.trans h.roots, h'.ext.trans h.ext⟩

theorem markZtoR_fr {s : EGraph} (k : Lk A s.p.g L) : Ens s.markZtoR fun r => Fr A s.p.g r.1.p.g ∧ Rest s r.1 ∧
    ∃ z, r.1.ic = { s.ic with z := z } := by
  unfold markZtoR
  refine Ens.bind (k.first s.ic.px true) fun l hl => Ens.bind (firstMarked_mem k s.ic.px _ l ?_) fun e he => ?_
  · rcases hl with ⟨_, h⟩ | ⟨_, h⟩
    · exact .inl h
    · exact .inr h
  refine Ens.bind (edgeVisited_val e) fun m hm => Ens.ite (fun _ => Ens.pure ⟨Fr.refl _ _, ⟨rfl, rfl, rfl, rfl⟩, 0, rfl⟩) fun h => ?_
  have he : e ∈ L s.ic.px := by
    refine he.resolve_left ?_
    rintro rfl
    refine hm (by simpa using h) ?_
    have : (s.setIC { s.ic with z := 0 }).p.g.E 0 = {} := k.zero
    rw [this]
  refine Ens.bind (alongPath_mem k _ e ⟨_, he⟩) fun e' he' => Ens.skip fun Z _ => ?_
  refine Ens.ite (fun _ => Ens.pure ⟨Fr.refl _ _, ⟨rfl, rfl, rfl, rfl⟩, 0, rfl⟩) fun _ => ?_
  refine Ens.bind (toRoot_fr _ s.p.g Z e' k he') fun ⟨g1, ok⟩ h1 => Ens.pure ⟨h1, ⟨rfl, rfl, rfl, rfl⟩, Z, rfl⟩

theorem markExt_fr {s : EGraph} (k : Lk A s.p.g L) {a b : Nat} (h : L a ≠ [] ∨ b ≠ 0) : Ens (s.markExt a b) fun r =>
    Fr A s.p.g r.1.p.g ∧ Rest s r.1 ∧ r.1.ic = s.ic := by
  unfold markExt
  refine Ens.bind (setVisited_fr (A := A) a) fun g1 h1 => Ens.bind (markExtLoop_fr _ g1 a true (k.fr h1) h) fun g2 h2 => Ens.pure ?_
  exact ⟨h1.trans h2, ⟨rfl, rfl, rfl, rfl⟩, rfl⟩

theorem parentArc_mem (k : Lk A g L) {d : Nat} : ∀ (fuel e : Nat), (e = 0 ∨ e ∈ L d) → Ens (parentArc g fuel e) fun e' => e' = 0 ∨ e' ∈ L d
  | 0, e, _ => by unfold parentArc; exact Ens.ite (fun _ => Ens.some (.inl rfl)) fun _ => Ens.none
  | fuel + 1, e, h => by
    unfold parentArc
    refine Ens.ite (fun _ => Ens.some (.inl rfl)) fun h0 => Ens.skip fun t _ => Ens.ite (fun _ => Ens.pure h) fun _ => ?_
    have h := h.resolve_left h0
    refine Ens.bind (getAdj_val e false) fun n hn => parentArc_mem k fuel n ?_
    rw [k.links.elink d false e h] at hn
    by_cases h0 : n = 0
    · exact .inl h0
    · right; subst hn; exact mem_dir.1 (nextIn_mem h0)

theorem markDFSLoop_fr {anc : Nat} : ∀ (fuel : Nat) (s : EGraph) (d : Nat), Lk A s.p.g L → Ens (markDFSLoop anc fuel s d) fun r =>
    Fr A s.p.g r.1.p.g ∧ Rest s r.1 ∧ r.1.ic = s.ic
  | 0, _, _, _ => Ens.none
  | fuel + 1, s, d, k => by
    unfold markDFSLoop
    refine Ens.ite (fun _ => Ens.some ⟨Fr.refl _ _, .refl _, rfl⟩) fun _ => Ens.ite (fun _ => Ens.some ⟨Fr.refl _ _, .refl _, rfl⟩) fun _ => ?_
    refine Ens.ite (fun _ => ?_) fun _ => ?_
    · refine Ens.skip fun u _ => Ens.bind (setVisited_fr (A := A) u) fun g1 h1 => ?_
      refine (markDFSLoop_fr fuel (s.setG g1) u (k.fr h1)).mono fun r h => ⟨h1.trans h.1, ?_, h.2.2⟩
      exact Rest.trans (s' := s.setG g1) ⟨rfl, rfl, rfl, rfl⟩ h.2.1
    · refine Ens.bind (k.first d false) fun a ha => Ens.bind (parentArc_mem k (d := d) _ a ?_) fun e he => ?_
      · rcases ha with ⟨_, h⟩ | ⟨_, h⟩
        · exact .inl h
        · exact .inr h
      have hj : ∀ u, (u = 0 ∨ e ∈ L d) → Ens (if u = 0 then Pure.pure (s, false) else do
          let g ← markEdge s.p.g e
          let g ← g.setVisited u
          markDFSLoop anc fuel (s.setG g) u) fun r => Fr A s.p.g r.1.p.g ∧ Rest s r.1 ∧ r.1.ic = s.ic := by
        intro u hu
        refine Ens.ite (fun _ => Ens.pure ⟨Fr.refl _ _, .refl _, rfl⟩) fun h0 => ?_
        refine Ens.bind (k.mark (hu.resolve_left h0)) fun g1 h1 => Ens.bind (setVisited_fr (A := A) u) fun g2 h2 => ?_
        refine (markDFSLoop_fr fuel (s.setG g2) u (k.fr (h1.trans h2))).mono fun r h => ⟨(h1.trans h2).trans h.1, ?_, h.2.2⟩
        exact Rest.trans (s' := s.setG g2) ⟨rfl, rfl, rfl, rfl⟩ h.2.1
      exact Ens.ite (fun h0 => Ens.skip fun u _ => hj u (.inr (he.resolve_left h0))) fun _ => Ens.bind (Ens.some (P := fun u => u = 0) rfl)
        fun u hu => hj u (.inl hu)

theorem markDFS_fr {s : EGraph} (k : Lk A s.p.g L) (anc desc : Nat) : Ens (s.markDFS anc desc) fun r =>
    Fr A s.p.g r.1.p.g ∧ Rest s r.1 ∧ r.1.ic = s.ic := by
  unfold markDFS
  have hj : ∀ d, Ens (s.p.g.setVisited d >>= fun g => markDFSLoop anc (s.p.g.vSize + 1) (s.setG g) d) fun r =>
      Fr A s.p.g r.1.p.g ∧ Rest s r.1 ∧ r.1.ic = s.ic := by
    intro d
    refine Ens.bind (setVisited_fr (A := A) d) fun g1 h1 => ?_
    refine (markDFSLoop_fr _ (s.setG g1) d (k.fr h1)).mono fun r h => ⟨h1.trans h.1, ?_, h.2.2⟩
    exact Rest.trans (s' := s.setG g1) ⟨rfl, rfl, rfl, rfl⟩ h.2.1
  exact Ens.ite (fun _ => Ens.skip fun d _ => hj d) fun _ => Ens.skip fun d _ => hj d

end Verif.Isolate
