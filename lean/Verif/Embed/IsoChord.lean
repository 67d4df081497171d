import Verif.Embed.IsoVeil

/-
The search for a path between the two sides of the outer face marks a single edge when all vertices are on the outer face.
-/
namespace Verif.Isolate
open Verif Verif.Embed Verif.Graph Verif.EGraph Verif.Random Verif.Test Function

variable {A : Nat → Prop} {g g' g0 : Graph} {L L1 : Nat → List Nat} {K : Nat → Prop} {R x w y : Nat} {P Q base : List Nat} {t : Nat → Nat} {s : EGraph}

/-- The lists while the inner edges of the root are hidden. -/
structure Face (L : Nat → List Nat) (R x : Nat) (P : List Nat) (w : Nat) (Q : List Nat) (y : Nat) : Prop where
  cyc : Cyc L (fun x => endIn false (L x)) (fun x => endIn true (L x)) R (x :: P ++ w :: Q ++ [y])
  root : ∀ e ∈ L R, e = endIn false (L R) ∨ e = endIn true (L R)
  ring : ∀ a ∈ x :: P ++ w :: Q ++ [y], ∀ e ∈ L a, ∃ b ∈ R :: (x :: P ++ w :: Q ++ [y]), twin e ∈ L b
  pos : ∀ a ∈ x :: P ++ w :: Q ++ [y], a ≠ 0

theorem nextIn_tail {l : List Nat} {e : Nat} (hn : l.Nodup) (h : nextIn l e ≠ 0) : nextIn l e ≠ l.headD 0 := by
  cases l with
  | nil => exact h
  | cons a l =>
    have h1 := (List.nodup_cons.1 hn).1
    have hm : nextIn (a :: l) e ∈ l := by
      unfold nextIn at h ⊢
      split at h
      · rename_i hae
        rw [if_pos hae]
        cases l with
        | nil => exact absurd rfl h
        | cons b l => exact List.mem_cons_self
      · rename_i hae
        rw [if_neg hae]
        exact nextIn_mem h
    intro hh
    rw [hh] at hm
    exact h1 hm

theorem Lk.prev_ne (k : Lk A g L) {z e : Nat} (he : e ∈ L z) (hne : e ≠ endIn false (L z)) : Ens (prevCirc g e) fun n => n ∈ L z ∧ n ≠ endIn true (L z) := by
  unfold prevCirc
  refine Ens.bind (getAdj_val e true) fun n hn => ?_
  rw [k.links.elink z true e he] at hn
  have hnd : (dir true (L z)).Nodup := List.nodup_reverse.2 (k.links.nodup z)
  have h0 : n ≠ 0 := by
    intro hh
    rw [hn, nextIn_eq_zero_iff hnd (fun h => k.links.zero_not_mem z (mem_dir.1 h)) (mem_dir.2 he)] at hh
    refine hne ?_
    rw [← hh]
    simp [dir, endIn]
  rw [if_pos h0]
  subst hn
  exact Ens.pure ⟨mem_dir.1 (nextIn_mem h0), nextIn_tail hnd h0⟩

/-- The successor of a vertex on the outer face. -/
theorem Face.succ (F : Face L R x P w Q y) {a : Nat} (ha : a ∈ R :: (x :: P ++ w :: Q ++ [y])) : ∃ n ∈ R :: (x :: P ++ w :: Q ++ [y]), twin (endIn false (L a)) = endIn true (L n) := by
  obtain ⟨S, T, hS⟩ := List.append_of_mem ha
  obtain ⟨n, T', hT⟩ : ∃ n T', T ++ [R] = n :: T' := List.exists_cons_of_ne_nil (by simp)
  have he : R :: (x :: P ++ w :: Q ++ [y]) ++ [R] = S ++ a :: n :: T' := by rw [hS, List.append_assoc, List.cons_append, hT]
  have h := F.cyc.chain
  rw [List.isChain_iff_forall_rel_of_append_cons_cons] at h
  exact ⟨n, mem_cyc (P := S ++ [a]) (Q := T') (by rw [he]; simp), h he⟩

theorem cyc_first (F : Cyc L (fun x => endIn false (L x)) (fun x => endIn true (L x)) R (x :: P ++ w :: Q ++ [y])) : twin (endIn false (L R)) = endIn true (L x) := by
  have h := F.chain
  rw [List.isChain_iff_forall_rel_of_append_cons_cons] at h
  exact h (l₁ := []) (l₂ := P ++ w :: Q ++ [y] ++ [R]) (by simp)

theorem Face.first (F : Face L R x P w Q y) : twin (endIn false (L R)) = endIn true (L x) := cyc_first F.cyc

theorem cyc_last (F : Cyc L (fun x => endIn false (L x)) (fun x => endIn true (L x)) R (x :: P ++ w :: Q ++ [y])) : twin (endIn false (L y)) = endIn true (L R) := by
  have h := F.chain
  rw [List.isChain_iff_forall_rel_of_append_cons_cons] at h
  exact h (l₁ := R :: (x :: P ++ w :: Q)) (l₂ := []) (by simp)

theorem Face.last (F : Face L R x P w Q y) : twin (endIn false (L y)) = endIn true (L R) := cyc_last F.cyc

theorem cyc_parts (F : Cyc L (fun x => endIn false (L x)) (fun x => endIn true (L x)) R (x :: P ++ w :: Q ++ [y])) : (∀ a ∈ x :: P, a ≠ w ∧ a ∉ Q ++ [y]) ∧ (∀ a ∈ x :: P ++ w :: Q ++ [y], a ≠ R) := by
  have hnd := List.nodup_cons.1 F.nodup
  have h2 : ((x :: P) ++ (w :: (Q ++ [y]))).Nodup := by simpa using hnd.2
  have h3 := (List.nodup_append.1 h2).2.2
  exact ⟨fun a ha => ⟨fun hh => h3 a ha w (by simp) hh, fun hh => h3 a ha a (List.mem_cons_of_mem _ hh) rfl⟩, fun a ha hh => hnd.1 (hh ▸ ha)⟩

theorem Face.parts (F : Face L R x P w Q y) : (∀ a ∈ x :: P, a ≠ w ∧ a ∉ Q ++ [y]) ∧ (∀ a ∈ x :: P ++ w :: Q ++ [y], a ≠ R) := cyc_parts F.cyc

/-- A step of the walk. -/
theorem Face.step (F : Face L R x P w Q y) (k : Lk A g L) {Z e : Nat} (hZ : Z ∈ x :: P) (he : e ∈ L Z) (hne : e ≠ endIn false (L Z)) :
    Ens (prevCirc g e) fun e' => ∃ Z' ∈ x :: P ++ w :: Q ++ [y], e' ∈ L Z ∧ twin e' ∈ L Z' ∧ twin e' ≠ endIn false (L Z') ∧ Z' ≠ Z ∧ (g.E e').nbr = Z' := by
  refine (k.prev_ne he hne).mono fun e' ⟨h1, h2⟩ => ?_
  have hZ' : Z ∈ x :: P ++ w :: Q ++ [y] := by simp at hZ ⊢; tauto
  obtain ⟨b, hb, hbe⟩ := F.ring Z hZ' e' h1
  have hdis := k.links.disj
  have key : ∀ a ∈ R :: (x :: P ++ w :: Q ++ [y]), twin e' ≠ endIn false (L a) := by
    intro a ha hh
    obtain ⟨n, hn, hna⟩ := F.succ ha
    rw [← hh, twin_twin] at hna
    have hm := F.cyc.ba_mem hn
    have : Z = n := hdis _ _ _ h1 (by rw [hna]; exact hm)
    subst this
    exact h2 hna
  have hbR : b ≠ R := by
    rintro rfl
    rcases F.root _ hbe with hh | hh
    · exact key _ hb hh
    · have h3 := F.last
      rw [← hh] at h3
      have h4 := twin_inj h3
      have hy : endIn false (L y) ∈ L y := F.cyc.fo_mem (by simp)
      have : Z = y := hdis _ _ _ h1 (by rw [← h4]; exact hy)
      subst this
      exact (F.parts.1 Z hZ).2 (by simp)
  have hb' := (List.mem_cons.1 hb).resolve_left hbR
  refine ⟨b, hb', h1, hbe, key b hb, ?_, ?_⟩
  · rintro rfl; exact k.apart _ _ h1 hbe
  · have := k.owner b _ hbe
    rwa [twin_twin] at this

/-- What holds throughout the walk: no edge is marked and the two sides have their types. -/
structure Calm (A : Nat → Prop) (t : Nat → Nat) (L : Nat → List Nat) (x : Nat) (P Q : List Nat) (y : Nat) (g : Graph) : Prop where
  lk : Lk A g L
  tag : Tag A t (fun _ => False) g
  left : ∀ z ∈ x :: P, ob g z = 2
  right : ∀ z ∈ Q ++ [y], ob g z = 6

theorem Calm.fr (h : Calm A t L x P Q y g) (f : Fr A g g') (ht : Tag A t (fun _ => False) g') (ho : ∀ z, ob g' z = ob g z) : Calm A t L x P Q y g' :=
  ⟨h.lk.fr f, ht, fun z hz => by rw [ho, h.left z hz], fun z hz => by rw [ho, h.right z hz]⟩

theorem half_small : ∀ r < 16, (r / 2 * 2) &&& 14 = r &&& 14 := by decide

theorem half_type (n : Nat) : (n / 2 * 2) &&& 14 = n &&& 14 := by
  rw [and14_mod, and14_mod n, ← half_small _ (Nat.mod_lt n (by decide : 16 > 0))]
  congr 1
  omega

theorem wrV_ob {v : Nat} {r : VRec} (h : r.flags &&& 14 = ob g v) : Ens (g.wrV v r) fun g' => ∀ z, ob g' z = ob g z := by
  unfold wrV
  refine Ens.ite (fun _ => Ens.some fun z => ?_) fun _ => Ens.none
  unfold ob at h ⊢
  show (update g.V v r z).flags &&& 14 = _
  by_cases hz : z = v
  · subst hz; rw [update_self]; exact h
  · rw [update_of_ne hz]

theorem clearVisited_ob (v : Nat) : Ens (g.clearVisited v) fun g' => ∀ z, ob g' z = ob g z := by
  unfold clearVisited
  exact Ens.bind (rdV_val v) fun r hr => wrV_ob (by rw [hr]; exact half_type _)

theorem setVisited_ob (v : Nat) : Ens (g.setVisited v) fun g' => ∀ z, ob g' z = ob g z := by
  unfold setVisited
  exact Ens.bind (rdV_val v) fun r hr => wrV_ob (by rw [hr]; exact type_or_one _)

theorem setVisited_seen (v : Nat) : Ens (g.setVisited v) fun g' => ∀ z, Seen g' z → z = v ∨ Seen g z := by
  unfold setVisited
  refine Ens.bind (rdV_val v) fun r hr => ?_
  unfold wrV
  refine Ens.ite (fun _ => Ens.some fun z hz => ?_) fun _ => Ens.none
  by_cases hzv : z = v
  · exact .inl hzv
  · right
    unfold Seen at hz ⊢
    simpa [update_of_ne hzv] using hz

theorem getVisited_val (v : Nat) : Ens (g.getVisited v) fun b => b = true ↔ Seen g v := by
  unfold getVisited
  exact Ens.bind (rdV_val v) fun r hr => Ens.pure (by rw [hr]; simp [Seen])

theorem clearVisited_stack (v : Nat) : Ens (g.clearVisited v) fun g' => g'.stack = g.stack := by
  unfold clearVisited wrV
  exact Ens.skip fun r _ => Ens.ite (fun _ => Ens.some rfl) fun _ => Ens.none
theorem clearEdgeVisited_sv (e : Nat) : Ens (clearEdgeVisited g e) fun g' => g'.stack = g.stack ∧ g'.V = g.V := by
  unfold clearEdgeVisited wrE
  exact Ens.skip fun r _ => Ens.ite (fun _ => Ens.some ⟨rfl, rfl⟩) fun _ => Ens.none
theorem unmarkEdge_sv (e : Nat) : Ens (unmarkEdge g e) fun g' => g'.stack = g.stack ∧ g'.V = g.V := by
  unfold unmarkEdge
  exact Ens.bind (clearEdgeVisited_sv _) fun _ h => (clearEdgeVisited_sv _).mono fun _ h' => ⟨h'.1.trans h.1, h'.2.trans h.2⟩
theorem unmarkEdge_tag (h : Tag A t (fun _ => False) g) (e : Nat) : Ens (unmarkEdge g e) (Tag A t fun _ => False) := by
  unfold unmarkEdge
  refine Ens.bind ((clearEdgeVisited_tag h e).mono fun _ h => h.mono (M' := fun _ => False) fun _ _ => by simp) fun g1 h1 => ?_
  exact (clearEdgeVisited_tag h1 _).mono fun _ h => h.mono fun _ _ => by simp

/-- The stack above `base`: nothing, or one vertex, the only one marked. -/
def Pile (xs base : List Nat) (g : Graph) : Prop :=
  (g.stack = base ∧ ∀ a ∈ xs, ¬ Seen g a) ∨ ∃ Z e, Z ≠ 0 ∧ g.stack = Z :: e :: base ∧ ∀ a ∈ xs, Seen g a → a = Z

theorem popUnmark_base {Z : Nat} (h : g.stack = base) : ∀ fuel, popUnmark Z base.length fuel g = some g := by
  intro fuel
  cases fuel <;> unfold popUnmark <;> rw [if_pos (by rw [h])]

theorem popUnmark_pile {xs : List Nat} (h : Calm A t L x P Q y g) (hp : Pile xs base g) (fuel : Nat) :
    Ens (popUnmark 0 base.length fuel g) fun g' => Calm A t L x P Q y g' ∧ g'.stack = base ∧ ∀ a ∈ xs, ¬ Seen g' a := by
  rcases hp with ⟨h1, h2⟩ | ⟨Z, e, h0, h1, h2⟩
  · rw [popUnmark_base h1]; exact Ens.some ⟨h, h1, h2⟩
  · have hl : ¬ g.stack.length ≤ base.length := by rw [h1]; simp
    cases fuel with
    | zero => unfold popUnmark; rw [if_neg hl]; exact Ens.none
    | succ fuel =>
      unfold popUnmark
      rw [if_neg hl]
      have hp : g.pop = some (Z, { g with stack := e :: base }) := by unfold pop; rw [h1]
      rw [hp]
      show Ens (if Z = 0 then _ else _) _
      rw [if_neg h0]
      show Ens ({ g with stack := base }.clearVisited Z >>= _) _
      have c0 : Calm A t L x P Q y { g with stack := base } := h.fr (fr_stack _ _) (h.tag.congr rfl) fun _ => rfl
      refine Ens.bind ((clearVisited_fr (A := A) Z).and ((clearVisited_sameE Z).and ((clearVisited_ob Z).and ((clearVisited_stack Z).and ((clearVisited_lo Z).and (clearVisited_un Z))))))
        fun g1 ⟨f1, e1, o1, s1, l1, u1⟩ => ?_
      have c1 := c0.fr f1 (c0.tag.congr e1) o1
      refine Ens.bind ((unmarkEdge_fr (A := A) e).and ((unmarkEdge_tag c1.tag e).and (unmarkEdge_sv e))) fun g2 ⟨f2, t2, s2, v2⟩ => ?_
      have c2 := c1.fr f2 t2 fun z => by unfold ob; rw [v2]
      rw [popUnmark_base (s2.trans s1)]
      refine Ens.some ⟨c2, s2.trans s1, fun a ha hh => ?_⟩
      have hh1 : Seen g1 a := by unfold Seen at hh ⊢; rwa [v2] at hh
      have : a = Z := h2 a ha (l1 a hh1)
      subst this
      exact u1 hh1

theorem onX_val (z : Nat) : Ens (onX g z) fun b => b = decide (ob g z = 10 ∨ ob g z = 2) := by
  unfold onX
  exact Ens.bind (obstType_val z) fun ty h => Ens.pure (by rw [h])
theorem onY_val (z : Nat) : Ens (onY g z) fun b => b = decide (ob g z = 14 ∨ ob g z = 6) := by
  unfold onY
  exact Ens.bind (obstType_val z) fun ty h => Ens.pure (by rw [h])

theorem push2_val (a b : Nat) : Ens (g.push2 a b) fun g' => g' = { g with stack := b :: a :: g.stack } := fun _ h => push2_some h

/-- Meeting a vertex of the first side. -/
theorem meetNew_left {xs : List Nat} (h : Calm A t L x P Q y s.p.g) (hp : Pile xs base s.p.g) {e Z : Nat} (hZ : Z ∈ x :: P) :
    Ens (s.meetNew base.length e Z) fun r => r.2 = false ∧ Calm A t L x P Q y r.1.p.g ∧ r.1.p.g.stack = Z :: e :: base ∧ (∀ a ∈ xs, Seen r.1.p.g a → a = Z) ∧
      r.1.ic = { s.ic with px := Z } := by
  unfold meetNew
  have hr : Ens (s.restart base.length Z) fun s1 => Calm A t L x P Q y s1.p.g ∧ s1.p.g.stack = base ∧ (∀ a ∈ xs, ¬ Seen s1.p.g a) ∧ s1.ic = { s.ic with px := Z } := by
    unfold restart
    refine Ens.bind (onX_val Z) fun b hb => ?_
    have hb : b = true := by rw [hb, h.left Z hZ]; decide
    rw [if_pos hb]
    exact Ens.bind (popUnmark_pile h hp _) fun g1 h1 => Ens.pure ⟨h1.1, h1.2.1, h1.2.2, rfl⟩
  refine Ens.bind hr fun s1 ⟨c1, k1, v1, i1⟩ => Ens.bind (push2_val e Z) fun g2 h2 => ?_
  have c2 : Calm A t L x P Q y g2 := c1.fr (by rw [h2]; exact fr_stack _ _) (c1.tag.congr (by rw [h2])) fun _ => by rw [h2]; rfl
  refine Ens.bind ((setVisited_fr (A := A) Z).and ((setVisited_sameE Z).and ((setVisited_ob Z).and ((setVisited_stack Z).and (setVisited_seen Z))))) fun g3 ⟨f3, e3, o3, k3, n3⟩ => ?_
  have c3 := c2.fr f3 (c2.tag.congr e3) o3
  rw [if_neg (by rw [i1]; simp)]
  refine Ens.bind (P := fun x => x = g3) (Ens.some rfl) fun g4 h4 => ?_
  subst h4
  refine Ens.bind (onY_val Z) fun b hb => ?_
  have hb : b = false := by rw [hb, c3.left Z hZ]; decide
  rw [if_neg (by rw [hb]; decide)]
  refine Ens.pure ⟨rfl, c3, ?_, ?_, i1⟩
  · show g4.stack = _
    rw [k3, h2, ← k1]
  · intro a ha hh
    rcases n3 a hh with rfl | hh
    · rfl
    · refine absurd ?_ (v1 a ha)
      rw [h2] at hh; exact hh

/-- Meeting a vertex of the second side. -/
theorem meetNew_right (h : Calm A t L x P Q y s.p.g) {n e Z : Nat} (hZ : Z ∈ Q ++ [y]) (hne : Z ≠ s.ic.px) :
    Ens (s.meetNew n e Z) fun r => r.2 = true ∧ Tag A t (fun a => a = e ∨ a = twin e) r.1.p.g ∧ r.1.ic = { s.ic with py := Z } := by
  unfold meetNew
  have hr : Ens (s.restart n Z) fun s1 => s1 = s := by
    unfold restart
    refine Ens.bind (onX_val Z) fun b hb => ?_
    have hb : b = false := by rw [hb, h.right Z hZ]; decide
    rw [if_neg (by rw [hb]; decide)]
    exact Ens.pure rfl
  refine Ens.bind hr fun s1 h1 => ?_
  subst h1
  refine Ens.bind (push2_val e Z) fun g2 h2 => ?_
  have c2 : Calm A t L x P Q y g2 := h.fr (by rw [h2]; exact fr_stack _ _) (h.tag.congr (by rw [h2])) fun _ => by rw [h2]; rfl
  refine Ens.bind ((setVisited_sameE Z).and (setVisited_ob Z)) fun g3 ⟨e3, o3⟩ => ?_
  rw [if_pos hne]
  have hob : Ens (markEdge g3 e) fun g4 => g4.V = g3.V := by
    have : ∀ (g : Graph) (e : Nat), Ens (setEdgeVisited g e) fun g' => g'.V = g.V := by
      intro g e
      unfold setEdgeVisited wrE
      exact Ens.skip fun r _ => Ens.ite (fun _ => Ens.some rfl) fun _ => Ens.none
    unfold markEdge
    exact Ens.bind (this _ _) fun _ h => (this _ _).mono fun _ h' => h'.trans h
  refine Ens.bind ((markEdge_tag (c2.tag.congr e3) e).and hob) fun g4 ⟨t4, v4⟩ => ?_
  refine Ens.bind (onY_val Z) fun b hb => ?_
  have hb : b = true := by
    rw [hb, show ob g4 Z = 6 by unfold ob; rw [v4]; exact (o3 Z).trans (c2.right Z hZ)]; decide
  rw [if_pos hb]
  exact Ens.pure ⟨rfl, t4.mono fun _ _ => by simp, rfl⟩

/-- What the walk ends with: nothing, or an edge between the two sides. -/
def Found (A : Nat → Prop) (t : Nat → Nat) (L : Nat → List Nat) (x : Nat) (P Q : List Nat) (y : Nat) (ic : IC) (g : Graph) : Prop :=
  ic.py = 0 ∨ ∃ a ∈ x :: P, ∃ b ∈ Q ++ [y], ∃ j ∈ L a, twin j ∈ L b ∧ Tag A t (fun e => e = j ∨ e = twin j) g

theorem xyLoop_chord (F : Face L R x P w Q y) : ∀ (fuel : Nat) (s : EGraph) (Z e : Nat), Z ∈ x :: P → e ∈ L Z → e ≠ endIn false (L Z) → Calm A t L x P Q y s.p.g →
    (∃ e0, s.p.g.stack = Z :: e0 :: base) → (∀ a ∈ x :: P ++ w :: Q ++ [y], Seen s.p.g a → a = Z) → s.ic.px = Z → s.ic.py = 0 →
    Ens (xyLoop true w base.length fuel s Z e) fun s' => Found A t L x P Q y s'.ic s'.p.g
  | 0, _, _, _, _, _, _, _, _, _, _, _ => Ens.none
  | fuel + 1, s, Z, e, hZ, he, hne, c, ⟨e0, hst⟩, hv, hpx, hpy => by
    unfold xyLoop
    refine Ens.skip fun b _ => Ens.ite (fun _ => Ens.pure (.inl hpy)) fun _ => ?_
    rw [if_pos rfl]
    refine Ens.bind (F.step c.lk hZ he hne) fun e' ⟨Z', hZ', h1, h2, h3, h4, h5⟩ => Ens.bind (getNbr_val e') fun z hz => ?_
    rw [h5] at hz
    subst hz
    refine Ens.bind (getVisited_val z) fun vis hvis => ?_
    rw [if_neg fun hh => h4 (hv z hZ' (hvis.1 hh))]
    refine Ens.ite (fun _ => Ens.skip fun g1 _ => Ens.pure (.inl hpy)) fun hw => ?_
    have hz0 : Z ∈ x :: P ++ w :: Q ++ [y] := by simp at hZ ⊢; tauto
    by_cases hl : z ∈ x :: P
    · refine Ens.bind (meetNew_left c (.inr ⟨Z, e0, F.pos Z hz0, hst, hv⟩) (e := twin e') hl) fun ⟨s1, dn⟩ ⟨d1, c1, k1, v1, i1⟩ => ?_
      dsimp only at d1 c1 k1 v1 i1 ⊢
      rw [if_neg (by rw [d1]; decide)]
      exact xyLoop_chord F fuel s1 z (twin e') hl h2 h3 c1 ⟨_, k1⟩ v1 (by rw [i1]) (by rw [i1]; exact hpy)
    · have hr : z ∈ Q ++ [y] := by
        simp only [List.mem_append, List.mem_cons, List.not_mem_nil, or_false, not_or] at hZ' hl ⊢
        tauto
      refine Ens.bind (meetNew_right c (n := base.length) (e := twin e') hr (by rw [hpx]; exact h4)) fun ⟨s1, dn⟩ ⟨d1, t1, i1⟩ => ?_
      dsimp only at d1 t1 i1 ⊢
      rw [if_pos d1]
      exact Ens.pure (.inr ⟨Z, hZ, z, hr, e', h1, h2, t1.mono fun a _ => by rw [twin_twin, or_comm]⟩)

theorem cyc_two (F : Cyc L (fun x => endIn false (L x)) (fun x => endIn true (L x)) R (x :: P ++ w :: Q ++ [y])) (hd : ∀ v w e, e ∈ L v → e ∈ L w → v = w) : endIn false (L R) ≠ endIn true (L R) ∧ endIn true (L x) ≠ endIn false (L x) := by
  have hx := F.ba_mem (show x ∈ R :: (x :: P ++ w :: Q ++ [y]) by simp)
  have hR := F.fo_mem (show R ∈ R :: (x :: P ++ w :: Q ++ [y]) by simp)
  have hy := F.fo_mem (show y ∈ R :: (x :: P ++ w :: Q ++ [y]) by simp)
  have hp := cyc_parts F
  constructor
  · intro hh
    have h1 := cyc_first F
    have h2 := cyc_last F
    have h3 : endIn false (L y) = endIn true (L x) := by rw [← h1, hh, ← h2, twin_twin]
    have : y = x := hd _ _ _ hy (by rw [h3]; exact hx)
    exact (hp.1 x (by simp)).2 (by rw [this]; simp)
  · intro hh
    have h1 := cyc_first F
    obtain ⟨n, T, hT⟩ : ∃ n T, P ++ w :: Q ++ [y] = n :: T := List.exists_cons_of_ne_nil (by simp)
    have hc := F.chain
    rw [List.isChain_iff_forall_rel_of_append_cons_cons] at hc
    have h2 : twin (endIn false (L x)) = endIn true (L n) := hc (l₁ := [R]) (l₂ := T ++ [R]) (by
      rw [show x :: P ++ w :: Q ++ [y] = x :: (P ++ w :: Q ++ [y]) by simp, hT]; simp)
    have hn : n ∈ x :: P ++ w :: Q ++ [y] := by
      rw [show x :: P ++ w :: Q ++ [y] = x :: (P ++ w :: Q ++ [y]) by simp, hT]; simp
    have h3 : endIn true (L n) = endIn false (L R) := by rw [← h2, ← hh, ← h1, twin_twin]
    have : n = R := hd _ _ _ (F.ba_mem (List.mem_cons_of_mem _ hn)) (by rw [h3]; exact hR)
    exact hp.2 n hn this

theorem xyLoop_start (F : Face L R x P w Q y) (fuel : Nat) (s : EGraph) (c : Calm A t L x P Q y s.p.g) (hst : s.p.g.stack = base) (hv : ∀ a ∈ x :: P ++ w :: Q ++ [y], ¬ Seen s.p.g a)
    (hpy : s.ic.py = 0) : Ens (xyLoop true w base.length fuel s R (endIn true (L R))) fun s' => Found A t L x P Q y s'.ic s'.p.g := by
  cases fuel with
  | zero => exact Ens.none
  | succ fuel =>
    unfold xyLoop
    refine Ens.skip fun b _ => Ens.ite (fun _ => Ens.pure (.inl hpy)) fun _ => ?_
    rw [if_pos rfl]
    have hR0 := F.cyc.ba_mem (show R ∈ R :: (x :: P ++ w :: Q ++ [y]) by simp)
    have ht := cyc_two F.cyc c.lk.links.disj
    refine Ens.bind (c.lk.prev_ne hR0 fun hh => ht.1 hh.symm) fun e' ⟨h1, h2⟩ => Ens.bind (getNbr_val e') fun z hz => ?_
    have he' := (F.root e' h1).resolve_right h2
    have hx := F.cyc.ba_mem (show x ∈ R :: (x :: P ++ w :: Q ++ [y]) by simp)
    have htw : twin e' = endIn true (L x) := by rw [he']; exact F.first
    have hzx : z = x := by
      have := c.lk.owner x _ hx
      rw [← htw, twin_twin] at this
      rw [hz, this]
    subst hzx
    have hzm : z ∈ z :: P ++ w :: Q ++ [y] := by simp
    refine Ens.bind (getVisited_val z) fun vis hvis => ?_
    rw [if_neg fun hh => hv z hzm (hvis.1 hh), if_neg (F.parts.1 z (by simp)).1]
    refine Ens.bind (meetNew_left c (.inl ⟨hst, hv⟩) (e := twin e') (Z := z) (by simp)) fun ⟨s1, dn⟩ ⟨d1, c1, k1, v1, i1⟩ => ?_
    dsimp only at d1 c1 k1 v1 i1 ⊢
    rw [if_neg (by rw [d1]; decide)]
    refine xyLoop_chord F fuel s1 z (twin e') (by simp) (by rw [htw]; exact hx) (by rw [htw]; exact ht.2) c1 ⟨_, k1⟩ v1 (by rw [i1]) (by rw [i1]; exact hpy)

end Verif.Isolate
