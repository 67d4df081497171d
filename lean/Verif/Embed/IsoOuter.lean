import Verif.Embed.IsoSub

/-
The edges marked for an obstruction to outerplanarity form a subdivision.
-/
namespace Verif.Isolate
open Verif Verif.Embed Verif.Graph Verif.EGraph Verif.Random Verif.Test Verif.DFS Verif.Props Function

variable {B : Base} {Pl : Plan B} {s s' : EGraph} {G : Gh B.D} {L L' fw PR : Nat → List Nat} {v c R x w y : Nat} {P Q xs : List Nat}
  {t : Nat → Nat} {M M' : Nat → Prop} {g g' : Graph}

/-- The arcs that lead along the outer face to the vertices of a list. -/
def Along (L : Nat → List Nat) (l : List Nat) (e : Nat) : Prop := ∃ z ∈ l, e = endIn true (L z) ∨ e = twin (endIn true (L z))

theorem Along.app {l l' : List Nat} {e : Nat} : Along L (l ++ l') e ↔ Along L l e ∨ Along L l' e := by
  unfold Along
  constructor
  · rintro ⟨z, hz, h⟩
    rcases List.mem_append.1 hz with hz | hz
    · exact .inl ⟨z, hz, h⟩
    · exact .inr ⟨z, hz, h⟩
  · rintro (⟨z, hz, h⟩ | ⟨z, hz, h⟩)
    · exact ⟨z, by simp [hz], h⟩
    · exact ⟨z, by simp [hz], h⟩

/-- The arcs from the first to the last of these vertices. -/
def seg (L : Nat → List Nat) (l : List Nat) : List Nat := l.map fun z => twin (endIn true (L z))

theorem mem_seg {l : List Nat} {e : Nat} : (e ∈ seg L l ∨ twin e ∈ seg L l) ↔ Along L l e := by
  unfold seg Along
  simp only [List.mem_map]
  constructor
  · rintro (⟨z, hz, rfl⟩ | ⟨z, hz, h⟩)
    · exact ⟨z, hz, .inr rfl⟩
    · exact ⟨z, hz, .inl (by rw [← twin_twin (endIn true (L z)), h, twin_twin])⟩
  · rintro ⟨z, hz, rfl | rfl⟩
    · exact .inr ⟨z, hz, rfl⟩
    · exact .inl ⟨z, hz, rfl⟩

theorem mem_rev {l : List Nat} {e : Nat} : (e ∈ l.reverse.map twin ∨ twin e ∈ l.reverse.map twin) ↔ (e ∈ l ∨ twin e ∈ l) := by
  have : ∀ e, e ∈ l.reverse.map twin ↔ twin e ∈ l := by
    intro e
    rw [List.mem_map]
    exact ⟨fun ⟨a, ha, h⟩ => by rw [← h, twin_twin]; exact List.mem_reverse.1 ha, fun h => ⟨twin e, List.mem_reverse.2 h, twin_twin e⟩⟩
  rw [this, this, twin_twin]; tauto

theorem Stage.way (g : Stage Pl G fw PR v c xs L t) (hp : Part B s L fw) {A C l : List Nat} {a : Nat}
    (h : (c + B.N) :: xs ++ [c + B.N] = A ++ a :: l ++ C) : Way B (seg L l) ((a :: l).map B.home) := by
  have hch := g.cyc.chain
  have hm : ∀ z ∈ (c + B.N) :: xs ++ [c + B.N], z ∈ (c + B.N) :: xs := by intro z hz; simp at hz ⊢; tauto
  have hown : ∀ z ∈ (c + B.N) :: xs ++ [c + B.N], B.own (endIn true (L z)) = B.home z ∧ B.own (endIn false (L z)) = B.home z := fun z hz =>
    ⟨hp.home z _ (g.cyc.ba_mem (hm z hz)), hp.home z _ (g.cyc.fo_mem (hm z hz))⟩
  rw [h] at hch hown
  replace hch := (List.isChain_append.1 (List.isChain_append.1 hch).1).2.1
  replace hown : ∀ z ∈ a :: l, B.own (endIn true (L z)) = B.home z ∧ B.own (endIn false (L z)) = B.home z := fun z hz => hown z (by simp at hz ⊢; tauto)
  clear h
  induction l generalizing a with
  | nil => exact .nil _
  | cons b l ih =>
    rw [List.isChain_cons_cons] at hch
    refine .cons ?_ ?_ (ih hch.2 fun z hz => hown z (List.mem_cons_of_mem _ hz))
    · dsimp only; rw [← hch.1, twin_twin]; exact (hown a List.mem_cons_self).2
    · dsimp only; rw [twin_twin]; exact (hown b (by simp)).1

theorem Stage.inn_home (g : Stage Pl G fw PR v c xs L t) {l : List Nat} (h : ∀ z ∈ l, z ∈ xs) : l.map B.home = l := by
  conv => rhs; rw [← List.map_id l]
  exact List.map_congr_left fun z hz => B.home_le (g.inn z (h z hz)).2.1

theorem Stage.child (g : Stage Pl G fw PR v c xs L t) : B.Child c := ⟨g.live.1, (g.good.root c g.live).1, (g.good.root c g.live).2.1⟩

theorem Stage.own_ta (g : Stage Pl G fw PR v c xs L t) (hp : Part B s L fw) {k : Nat} (hk : B.Child k) : B.own (B.ta k) = B.par k ∧ B.own (twin (B.ta k)) = k := by
  constructor
  · rw [hp.home _ _ (g.hold k hk)]
    unfold holder
    split
    · exact B.home_le (by have := B.par_lt k hk.1 hk.2.1; have := hk.2.1; omega)
    · exact B.home_root hk.1
  · rw [hp.home _ _ (g.foot k hk)]; exact B.home_le hk.2.1

theorem Climb.le {a d : Nat} : ∀ {l : List Nat} {d : Nat}, Climb B a d l → a ≤ d ∧ ∀ z ∈ l, a < z ∧ z ≤ d ∧ B.Child z
  | [], d, h => ⟨le_of_eq (Eq.symm h), fun z hz => absurd hz List.not_mem_nil⟩
  | k :: l, d, ⟨hk, hc, h⟩ => by
    have ih := Climb.le (a := a) (d := d) h
    have hlt := B.par_lt d hc.1 hc.2.1
    refine ⟨by omega, fun z hz => ?_⟩
    rcases List.mem_cons.1 hz with rfl | hz
    · subst hk; exact ⟨by omega, le_rfl, hc⟩
    · have := ih.2 z hz; exact ⟨this.1, by omega, this.2.2⟩

theorem Climb.nodup {a : Nat} : ∀ {l : List Nat} {d : Nat}, Climb B a d l → l.Nodup
  | [], _, _ => List.nodup_nil
  | k :: l, d, ⟨hk, hc, h⟩ => by
    refine List.nodup_cons.2 ⟨fun hh => ?_, Climb.nodup h⟩
    have := ((Climb.le (d := d) h).2 k hh).2.1
    have hlt := B.par_lt d hc.1 hc.2.1
    omega

theorem Climb.head {a d : Nat} {l : List Nat} (h : Climb B a d l) (hne : d ≠ a) : ∃ l', l = d :: l' := by
  cases l with
  | nil => exact absurd h hne
  | cons k l => exact ⟨l, by rw [h.1]⟩

theorem Climb.below {a k : Nat} (hk : B.par k = a) : ∀ {l : List Nat} {d : Nat}, Climb B a d l → AncEq B.par k d → ∀ z ∈ l, AncEq B.par k z
  | [], _, _, _, z, hz => absurd hz List.not_mem_nil
  | e :: l, d, ⟨he, hc, h⟩, hd, z, hz => by
    rcases List.mem_cons.1 hz with rfl | hz
    · rw [he]; exact hd
    · rcases hd.cases with hh | hh
      · rw [← hh, hk] at h
        cases l with
        | nil => cases hz
        | cons i l =>
          have := ((Climb.le (d := d) h).2 i List.mem_cons_self).1
          rw [h.1] at this; omega
      · exact Climb.below hk h hh.2 z hz

theorem Climb.way (g : Stage Pl G fw PR v c xs L t) (hp : Part B s L fw) {a : Nat} : ∀ {l : List Nat} {d : Nat}, Climb B a d l → Way B (l.map fun k => twin (B.ta k)) (l ++ [a])
  | [], _, _ => .nil a
  | [k], d, ⟨hk, hc, h⟩ => by
    have h : B.par d = a := h
    subst hk
    exact .one (g.own_ta hp hc).2 (by rw [twin_twin, (g.own_ta hp hc).1]; exact h)
  | k :: k' :: l, d, ⟨hk, hc, h⟩ => by
    have ih := Climb.way g hp h
    subst hk
    refine .cons (g.own_ta hp hc).2 ?_ ih
    rw [twin_twin, (g.own_ta hp hc).1]; exact h.1.symm

theorem mem_trail {l : List Nat} {e : Nat} : (e ∈ (l.map fun k => twin (B.ta k)) ∨ twin e ∈ l.map fun k => twin (B.ta k)) ↔ Trail B l e := by
  unfold Trail
  simp only [List.mem_map]
  constructor
  · rintro (⟨z, hz, rfl⟩ | ⟨z, hz, h⟩)
    · exact ⟨z, hz, .inr rfl⟩
    · exact ⟨z, hz, .inl (by rw [← twin_twin (B.ta z), h, twin_twin])⟩
  · rintro ⟨z, hz, rfl | rfl⟩
    · exact .inr ⟨z, hz, rfl⟩
    · exact .inl ⟨z, hz, rfl⟩

theorem thin23 : Thin 5 edgesK23 := by
  constructor
  · decide
  · unfold edgesK23
    simp only [List.pairwise_cons, List.mem_cons, List.not_mem_nil, or_false, forall_eq_or_imp, forall_eq, IsEmpty.forall_iff, implies_true, List.Pairwise.nil, and_true]
    refine ⟨⟨?_, ?_, ?_, ?_, ?_⟩, ⟨?_, ?_, ?_, ?_⟩, ⟨?_, ?_, ?_⟩, ⟨?_, ?_⟩, ?_⟩ <;> exact ⟨by decide, fun i j => by omega⟩

theorem thin4 : Thin 4 edgesK4 := by
  constructor
  · decide
  · unfold edgesK4
    simp only [List.pairwise_cons, List.mem_cons, List.not_mem_nil, or_false, forall_eq_or_imp, forall_eq, IsEmpty.forall_iff, implies_true, List.Pairwise.nil, and_true]
    refine ⟨⟨?_, ?_, ?_, ?_, ?_⟩, ⟨?_, ?_, ?_, ?_⟩, ⟨?_, ?_, ?_⟩, ⟨?_, ?_⟩, ?_⟩ <;> exact ⟨by decide, fun i j => by omega⟩

/-- The outer face with a path that joins its root with `w`. -/
theorem Stage.k23 (g : Stage Pl G fw PR v c (x :: P ++ w :: Q ++ [y]) L t) (hp : Part B s L fw) (h : Remains B M g' L') {m1 m2 p1 p2 : List Nat} {b : Nat}
    (w1 : Way B m1 (B.par c :: p1 ++ [b])) (w2 : Way B m2 (b :: p2 ++ [w])) (hn : (B.par c :: p1 ++ b :: p2 ++ (x :: P ++ w :: Q ++ [y])).Nodup)
    (hr : ∀ z ∈ p1 ++ b :: p2, 1 ≤ z ∧ z ≤ B.N)
    (hM : ∀ e, (B.A e ∧ M e) ↔ Along L ((x :: P ++ w :: Q ++ [y]) ++ [c + B.N]) e ∨ (e ∈ m1 ∨ twin e ∈ m1) ∨ (e ∈ m2 ∨ twin e ∈ m2)) : IsSubdivision g' 5 edgesK23 := by
  have hc := g.child
  have hpc := B.par_lt c hc.1 hc.2.1
  have hhr : B.home (c + B.N) = B.par c := B.home_root hc.1
  have s1 := g.way hp (A := []) (a := c + B.N) (l := [x]) (C := P ++ w :: Q ++ [y] ++ [c + B.N]) (by simp)
  have s2 := g.way hp (A := [c + B.N]) (a := x) (l := P ++ [w]) (C := Q ++ [y] ++ [c + B.N]) (by simp)
  have s3 := g.way hp (A := (c + B.N) :: x :: P) (a := w) (l := Q ++ [y]) (C := [c + B.N]) (by simp)
  have s4 := g.way hp (A := (c + B.N) :: x :: P ++ w :: Q) (a := y) (l := [c + B.N]) (C := []) (by simp)
  rw [List.map_cons, hhr, g.inn_home (by simp)] at s1
  rw [g.inn_home (by intro z hz; simp at hz ⊢; tauto)] at s2 s3
  rw [List.map_cons, List.map_cons, hhr, B.home_le (g.inn y (by simp)).2.1] at s4
  refine h.subdivision thin23 (branch := fun i => match i with | 0 => B.par c | 1 => w | 2 => x | 3 => y | _ => b)
    (path := fun p => match p with | (0, 4) => p1 | (2, 1) => P | (3, 1) => Q.reverse | (4, 1) => p2 | _ => [])
    (ms := fun p => match p with | (0, 2) => seg L [x] | (0, 3) => (seg L [c + B.N]).reverse.map twin | (0, 4) => m1 | (2, 1) => seg L (P ++ [w]) | (3, 1) => (seg L (Q ++ [y])).reverse.map twin | (4, 1) => m2 | _ => []) ?_ ?_ ?_ ?_
  · have hpm : ([B.par c, w, x, y, b] ++ ([] ++ ([] ++ (p1 ++ (P ++ (Q.reverse ++ (p2 ++ []))))))).Perm (B.par c :: p1 ++ b :: p2 ++ (x :: P ++ w :: Q ++ [y])) := by
      rw [List.perm_iff_count]
      intro a
      simp only [List.count_append, List.count_cons, List.count_nil, List.count_reverse]
      omega
    exact hpm.nodup_iff.2 hn
  · intro z hz
    have hz : z ∈ [B.par c, w, x, y, b] ++ ([] ++ ([] ++ (p1 ++ (P ++ (Q.reverse ++ (p2 ++ [])))))) := hz
    have : z = B.par c ∨ z ∈ p1 ++ b :: p2 ∨ z ∈ x :: P ++ w :: Q ++ [y] := by simp at hz ⊢; tauto
    rcases this with rfl | hh | hh
    · have := hc.2.1; have := hc.2.2; omega
    · exact hr z hh
    · exact ⟨(g.inn z hh).1, (g.inn z hh).2.1⟩
  · intro p hp
    simp only [edgesK23, List.mem_cons, List.not_mem_nil, or_false] at hp
    rcases hp with rfl | rfl | rfl | rfl | rfl | rfl
    · exact s1
    · exact s4.rev
    · exact w1
    · exact s2
    · have := s3.rev; simpa using this
    · exact w2
  · intro e
    rw [hM]
    simp only [edgesK23, List.mem_cons, List.not_mem_nil, or_false, exists_eq_or_imp, exists_eq_left, mem_rev, mem_seg]
    have : (x :: P ++ w :: Q ++ [y]) ++ [c + B.N] = [x] ++ ((P ++ [w]) ++ ((Q ++ [y]) ++ [c + B.N])) := by simp
    rw [this]
    simp only [Along.app]
    tauto

/-- The outer face with an edge that joins its root with `w` and an edge across. -/
theorem Stage.k4 {P1 P2 Q1 Q2 : List Nat} {a b f j : Nat} (g : Stage Pl G fw PR v c xs L t) (hx : xs = P1 ++ a :: P2 ++ w :: Q1 ++ b :: Q2) (hp : Part B s L fw) (h : Remains B M g' L')
    (f1 : B.own f = B.par c) (f2 : B.own (twin f) = w) (j1 : B.own j = a) (j2 : B.own (twin j) = b)
    (hM : ∀ e, (B.A e ∧ M e) ↔ Along L (xs ++ [c + B.N]) e ∨ (e = f ∨ e = twin f) ∨ (e = j ∨ e = twin j)) : IsSubdivision g' 4 edgesK4 := by
  have hc := g.child
  have hpc := B.par_lt c hc.1 hc.2.1
  have hhr : B.home (c + B.N) = B.par c := B.home_root hc.1
  have hn := (List.nodup_cons.1 g.cyc.nodup).2
  have hcn : B.par c ∉ xs := fun hh => by
    have := g.inn _ hh
    have := this.2.2 ▸ g.good.cp_le B.par_lt this.1 this.2.1
    omega
  have hin := g.inn
  subst hx
  have s1 := g.way hp (A := []) (a := c + B.N) (l := P1 ++ [a]) (C := P2 ++ w :: Q1 ++ b :: Q2 ++ [c + B.N]) (by simp)
  have s2 := g.way hp (A := (c + B.N) :: P1) (a := a) (l := P2 ++ [w]) (C := Q1 ++ b :: Q2 ++ [c + B.N]) (by simp)
  have s3 := g.way hp (A := (c + B.N) :: P1 ++ a :: P2) (a := w) (l := Q1 ++ [b]) (C := Q2 ++ [c + B.N]) (by simp)
  have s4 := g.way hp (A := (c + B.N) :: P1 ++ a :: P2 ++ w :: Q1) (a := b) (l := Q2 ++ [c + B.N]) (C := []) (by simp)
  rw [List.map_cons, hhr, g.inn_home (by intro z hz; simp at hz ⊢; tauto)] at s1
  rw [g.inn_home (by intro z hz; simp at hz ⊢; tauto)] at s2 s3
  rw [← List.cons_append, List.map_append, List.map_singleton, hhr, g.inn_home (by intro z hz; simp at hz ⊢; tauto)] at s4
  refine h.subdivision thin4 (branch := fun i => match i with | 0 => B.par c | 1 => w | 2 => a | _ => b)
    (path := fun p => match p with | (0, 2) => P1 | (0, 3) => Q2.reverse | (1, 2) => P2.reverse | (1, 3) => Q1 | _ => [])
    (ms := fun p => match p with | (0, 1) => [f] | (0, 2) => seg L (P1 ++ [a]) | (0, 3) => (seg L (Q2 ++ [c + B.N])).reverse.map twin | (1, 2) => (seg L (P2 ++ [w])).reverse.map twin | (1, 3) => seg L (Q1 ++ [b]) | (2, 3) => [j] | _ => []) ?_ ?_ ?_ ?_
  · have hpm : ([B.par c, w, a, b] ++ ([] ++ (P1 ++ (Q2.reverse ++ (P2.reverse ++ (Q1 ++ ([] ++ []))))))).Perm (B.par c :: (P1 ++ a :: P2 ++ w :: Q1 ++ b :: Q2)) := by
      rw [List.perm_iff_count]
      intro a
      simp only [List.count_append, List.count_cons, List.count_nil, List.count_reverse]
      omega
    exact hpm.nodup_iff.2 (List.nodup_cons.2 ⟨hcn, hn⟩)
  · intro z hz
    have hz : z ∈ [B.par c, w, a, b] ++ ([] ++ (P1 ++ (Q2.reverse ++ (P2.reverse ++ (Q1 ++ ([] ++ [])))))) := hz
    have : z = B.par c ∨ z ∈ P1 ++ a :: P2 ++ w :: Q1 ++ b :: Q2 := by simp at hz ⊢; tauto
    rcases this with rfl | hh
    · have := hc.2.1; have := hc.2.2; omega
    · exact ⟨(hin z hh).1, (hin z hh).2.1⟩
  · intro p hp
    simp only [edgesK4, List.mem_cons, List.not_mem_nil, or_false] at hp
    rcases hp with rfl | rfl | rfl | rfl | rfl | rfl
    · exact .one f1 f2
    · exact s1
    · have := s4.rev; simpa using this
    · have := s2.rev; simpa using this
    · exact s3
    · exact .one j1 j2
  · intro e
    rw [hM]
    have ht : ∀ d, twin e = d ↔ e = twin d := fun d => ⟨fun h => by rw [← h, twin_twin], fun h => by rw [h, twin_twin]⟩
    simp only [edgesK4, List.mem_cons, List.not_mem_nil, or_false, exists_eq_or_imp, exists_eq_left, mem_rev, mem_seg, ht]
    have : (P1 ++ a :: P2 ++ w :: Q1 ++ b :: Q2) ++ [c + B.N] = (P1 ++ [a]) ++ ((P2 ++ [w]) ++ ((Q1 ++ [b]) ++ (Q2 ++ [c + B.N]))) := by simp
    rw [this]
    simp only [Along.app]
    tauto

theorem markExt_play (g : Stage Pl G fw PR v c xs L t) (h : Play Pl fw PR v L t s M) :
    Ok (s.markExt (c + B.N) (c + B.N)) fun s' => s'.ic = s.ic ∧ Play Pl fw PR v L t s' (fun e => M e ∨ Along L (xs ++ [c + B.N]) e) := by
  have k := h.part.lk
  have hne : L (c + B.N) ≠ [] := g.cyc.ne _ List.mem_cons_self
  unfold markExt
  refine Ok.bind ((setVisited_fr (A := B.A) (c + B.N)).and (setVisited_sameE _)) fun g1 h1 => ?_
  refine Ok.bind ((markExtLoop_fr _ g1 _ true (k.fr h1.1) (.inl hne)).and
    (markExtLoop_tag g.cyc _ g1 M [] (xs ++ [c + B.N]) _ true (k.fr h1.1) (h.tag.congr h1.2) (by simp) (by simp) rfl)) fun g2 h2 => Ok.ret ⟨rfl, ?_⟩
  exact h.mv (Mv.setG s (h1.1.trans h2.1)) rfl h2.2

/-- The components are joined and the unembedded edge is added and marked. -/
theorem finish_play (hB : NoLoop B) (h : Play Pl fw PR v L t s M) (hv : s.ic.v = v) (h1 : 1 ≤ v) (h2 : v ≤ B.N) (hex : ∃ f ∈ fw v, B.own (twin f) = s.ic.dw) :
    Ok (both s.joinOk fun s => s.addMarkEdge s.ic.v s.ic.dw) fun s' => ∃ f ∈ fw v, B.own (twin f) = s.ic.dw ∧ Tag B.A t (fun e => M e ∨ e = f ∨ e = twin f) s'.p.g := by
  have hj : Ok s.joinOk fun s' => ∃ L', Part B s' L' fw ∧ s'.ic = s.ic ∧ KF s.p.g s'.p.g := by
    unfold joinOk
    exact Ok.bind ((h.part.join hB).and joinBicomps_kf) fun s' ⟨⟨L', a, b, _⟩, d⟩ => Ok.ret ⟨L', a, b, d⟩
  refine Ok.both hj fun s1 ⟨L', hp, hi, kf⟩ => ?_
  rw [hi, hv]
  exact addMarkEdge_tag hB hp (h.tag.flags fun e _ => kf e) h1 h2 hex

end Verif.Isolate
