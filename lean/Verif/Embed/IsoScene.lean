import Verif.Embed.IsoStage

/-
The context of the isolation: the root, its neighbours x and y on the outer face and the pertinent vertex w between them.
-/
namespace Verif.Isolate
open Verif Verif.Embed Verif.Graph Verif.EGraph Verif.Random Verif.Test Function
open Verif.Props (AncEq Anc)

variable {A : Nat → Prop} {B : Base} {Pl : Plan B} {s s' s0 : EGraph} {G : Gh B.D} {L fw PR : Nat → List Nat} {v c R : Nat} {xs : List Nat}
  {t : Nat → Nat} {M M' : Nat → Prop} {g g' : Graph} {fo ba : Nat → Nat}

/-- The type of a vertex. -/
def ob (g : Graph) (z : Nat) : Nat := (g.V z).flags &&& 14

theorem and14_mod (n : Nat) : n &&& 14 = n % 16 &&& 14 := by
  apply Nat.eq_of_testBit_eq
  intro i
  rw [Nat.testBit_and, Nat.testBit_and, show (16 : Nat) = 2 ^ 4 from rfl, Nat.testBit_mod_two_pow]
  by_cases h : i < 4
  · simp [h]
  · have : Nat.testBit 14 i = false := Nat.testBit_lt_two_pow (lt_of_lt_of_le (by decide : 14 < 2 ^ 4) (Nat.pow_le_pow_right (by decide) (by omega)))
    simp [this]

theorem reset_small : ∀ r < 16, ((r - (r &&& 14)) ||| 2) &&& 14 = 2 ∧ ((r - (r &&& 14)) ||| 6) &&& 14 = 6 := by decide

theorem reset_type (n ty : Nat) (h : ty = 2 ∨ ty = 6) : ((n - (n &&& 14)) ||| ty) &&& 14 = ty := by
  have h1 : n % 16 < 16 := Nat.mod_lt _ (by decide)
  have h2 : n % 16 &&& 14 ≤ n % 16 := Nat.and_le_left
  have h3 : (n - (n % 16 &&& 14)) % 16 = n % 16 - (n % 16 &&& 14) := by omega
  rw [and14_mod n, and14_mod, show (16 : Nat) = 2 ^ 4 from rfl, Nat.or_mod_two_pow]
  rw [show (2 : Nat) ^ 4 = 16 from rfl, h3]
  have := reset_small _ h1
  rcases h with rfl | rfl
  · exact this.1
  · exact this.2

theorem resetObst_ob (z ty : Nat) (h : ty = 2 ∨ ty = 6) : Ens (resetObst g z ty) fun g' => ob g' z = ty ∧ ∀ y, y ≠ z → ob g' y = ob g y := by
  unfold resetObst
  refine Ens.bind (rdV_val z) fun r hr => ?_
  unfold wrV
  refine Ens.ite (fun _ => Ens.some ⟨?_, fun y hy => ?_⟩) fun _ => Ens.none
  · unfold ob
    show (update g.V z _ z).flags &&& 14 = ty
    rw [update_self]
    exact reset_type _ _ h
  · unfold ob
    show (update g.V z _ y).flags &&& 14 = _
    rw [update_of_ne hy]

theorem obstType_val (z : Nat) : Ens (obstType g z) fun ty => ty = ob g z := by
  unfold obstType
  exact Ens.bind (rdV_val z) fun r hr => Ens.pure (by rw [hr]; rfl)

/-- One side of the outer face is given its type. -/
theorem typeSide_ob (h : Cyc L fo ba R xs) {X W low : Nat} (hlow : low = 2 ∨ low = 6) {T : List Nat} : ∀ (fuel : Nat) (S P : List Nat) (g : Graph) (z : Nat) (prev : Bool) (ty : Nat), Lk A g L →
    R :: xs ++ [R] = P ++ (S ++ W :: T) → (S ++ [W]).head? = some z → endIn (!prev) (L z) = fo z → (ty = low ∨ z = X) → W ∉ S → S.Nodup →
    Ens (typeSide X W low fuel g z prev ty) fun g' => (∀ y ∈ S, ob g' y = low) ∧ ∀ y, y ∉ S → ob g' y = ob g y
  | 0, _, _, _, _, _, _, _, _, _, _, _, _, _ => Ens.none
  | fuel + 1, S, P, g, z, prev, ty, k, hS, hz, hp, ht, hW, hnd => by
    unfold typeSide
    refine Ens.ite (fun hzW => Ens.some ?_) fun hzW => ?_
    · cases S with
      | nil => exact ⟨fun y hy => absurd hy List.not_mem_nil, fun _ _ => rfl⟩
      | cons a S =>
        simp only [List.cons_append, List.head?_cons, Option.some.injEq] at hz
        exact absurd (by rw [hz, hzW]; simp) hW
    · cases S with
      | nil =>
        simp only [List.nil_append, List.head?_cons, Option.some.injEq] at hz
        exact absurd hz.symm hzW
      | cons a S =>
        simp only [List.cons_append, List.head?_cons, Option.some.injEq] at hz
        subst hz
        have hlow' : (if a = X then low else ty) = low := by
          split
          · rfl
          · rename_i hx; exact ht.resolve_right hx
        dsimp only
        rw [hlow']
        refine Ens.bind ((resetObst_fr (A := A) a low).and (resetObst_ob a low hlow)) fun g1 ⟨f1, o1⟩ => ?_
        have k1 := k.fr f1
        obtain ⟨b, S', hb⟩ : ∃ b S', S ++ W :: T = b :: S' := List.exists_cons_of_ne_nil (by simp)
        have hS' : R :: xs ++ [R] = P ++ a :: b :: S' := by rw [hS, List.cons_append, hb]
        refine Ens.bind (h.step k1 hS' hp) fun ⟨z, p⟩ hr => ?_
        obtain ⟨rfl, h1, h2⟩ : z = b ∧ endIn p (L b) = ba b ∧ endIn (!p) (L b) = fo b := hr
        have hnd' := List.nodup_cons.1 hnd
        refine (typeSide_ob (T := T) h hlow fuel S (P ++ [a]) g1 z p low k1 (by rw [hS]; simp) ?_ h2 (.inl rfl) (fun hh => hW (List.mem_cons_of_mem _ hh)) hnd'.2).mono fun g2 h3 => ⟨?_, ?_⟩
        · cases S with
          | nil => simp at hb ⊢; exact hb.1
          | cons b S => simp at hb ⊢; exact hb.1
        · intro y hy
          rcases List.mem_cons.1 hy with rfl | hy
          · rw [h3.2 _ hnd'.1]; exact o1.1
          · exact h3.1 y hy
        · intro y hy
          rw [h3.2 y fun hh => hy (List.mem_cons_of_mem _ hh)]
          exact o1.2 y fun hh => hy (by rw [hh]; simp)

theorem pertinent_range (P : Part B s L fw) (w : Nat) : Ens (s.pertinent w) fun _ => w ≤ B.N := by
  unfold pertinent
  exact Ens.bind (rdVI_val w) fun r hr => Ens.pure (by have := hr.1; rw [P.N] at this; omega)

theorem findPertinent_cyc (P : Part B s L fw) (h : Cyc L fo ba R xs) (hR : B.N < R) {Z : List Nat} : ∀ (fuel : Nat) (T Q : List Nat) (a : Nat) (prev : Bool),
    xs ++ [R] = Z ++ (T ++ a :: Q) → endIn (!prev) (L a) = fo a → Ens (s.findPertinent fuel a prev) fun w => w = 0 ∨ (w ≠ s.ic.y ∧ ∃ T' Q', xs = Z ++ (T' ++ w :: Q'))
  | 0, _, _, _, _, _, _ => Ens.none
  | fuel + 1, T, Q, a, prev, he, hp => by
    unfold findPertinent
    refine Ens.ite (fun _ => Ens.some (.inl rfl)) fun hy => Ens.bind (pertinent_range P a) fun b ha => ?_
    have hQ : ∃ Q', Q = Q' ++ [R] := by
      rcases List.eq_nil_or_concat Q with rfl | ⟨l, z, rfl⟩
      · have : xs ++ [R] = (Z ++ T) ++ [a] := by rw [he]; simp
        have := (List.append_inj' this rfl).2
        simp at this
        omega
      · have : xs ++ [R] = (Z ++ (T ++ a :: l)) ++ [z] := by rw [he]; simp
        have := (List.append_inj' this rfl).2
        simp at this
        exact ⟨l, by rw [List.concat_eq_append, this]⟩
    obtain ⟨Q', rfl⟩ := hQ
    have hxs : xs = Z ++ (T ++ a :: Q') := by
      have : xs ++ [R] = (Z ++ (T ++ a :: Q')) ++ [R] := by rw [he]; simp
      exact (List.append_inj' this rfl).1
    refine Ens.ite (fun _ => Ens.pure (.inr ⟨hy, T, Q', hxs⟩)) fun _ => ?_
    obtain ⟨b', S, hS⟩ : ∃ b' S, Q' ++ [R] = b' :: S := by
      cases Q' with
      | nil => exact ⟨R, [], rfl⟩
      | cons x Q' => exact ⟨x, Q' ++ [R], rfl⟩
    have hstep : R :: xs ++ [R] = (R :: (Z ++ T)) ++ a :: b' :: S := by rw [List.cons_append, he, hS]; simp
    refine Ens.bind (h.step P.lk hstep hp) fun ⟨z, p⟩ hr => ?_
    obtain ⟨rfl, h1, h2⟩ : z = b' ∧ endIn p (L b') = ba b' ∧ endIn (!p) (L b') = fo b' := hr
    exact findPertinent_cyc P h hR fuel (T ++ [a]) S z p (by rw [he, hS]; simp) h2

/-- The context: the outer face is root, x, P, w, Q, y, and the two sides have their types. -/
structure Scene (Pl : Plan B) (G : Gh B.D) (fw PR : Nat → List Nat) (v c : Nat) (x : Nat) (P : List Nat) (w : Nat) (Q : List Nat) (y : Nat) (L : Nat → List Nat) (t : Nat → Nat)
    (s : EGraph) : Prop where
  stage : Stage Pl G fw PR v c (x :: P ++ w :: Q ++ [y]) L t
  play : Play Pl fw PR v L t s fun _ => False
  v : s.ic.v = v
  r : s.ic.r = c + B.N
  w : s.ic.w = w
  mt : s.ic.minorType = 0
  left : ∀ z ∈ x :: P, ob s.p.g z = 2
  right : ∀ z ∈ Q ++ [y], ob s.p.g z = 6
  vis : ∀ z, 1 ≤ z → z ≤ B.N → ¬ Seen s.p.g z

theorem activeVertices_cyc (k : Lk A s.p.g L) (h : Cyc L (fun x => endIn false (L x)) (fun x => endIn true (L x)) R xs) (hne : xs ≠ []) :
    Ens (s.activeVertices true R) fun s' => ∃ x y, s' = s.setIC { s.ic with x := x, y := y } ∧ xs.head? = some x ∧ xs.getLast? = some y := by
  unfold activeVertices
  have key : ∀ {xs : List Nat} (_ : xs ≠ []), ∃ a T, xs = a :: T ∧ R :: xs ++ [R] = [] ++ R :: a :: (T ++ [R]) := by
    intro xs hne
    obtain ⟨a, T, rfl⟩ := List.exists_cons_of_ne_nil hne
    exact ⟨a, T, rfl, by simp⟩
  obtain ⟨a, T, ha, h1⟩ := key hne
  obtain ⟨b, T', hb, h2⟩ := key (xs := xs.reverse) (by simpa using hne)
  refine Ens.bind (h.step k h1 (prev := true) rfl) fun ⟨x, px⟩ hx => Ens.bind (h.rev.step k h2 (prev := false) rfl) fun ⟨y, py⟩ hy => ?_
  dsimp only
  rw [if_pos rfl]
  obtain ⟨rfl, -⟩ := hx
  obtain ⟨rfl, -⟩ := hy
  refine Ens.pure ⟨_, _, rfl, by rw [ha]; rfl, ?_⟩
  rw [← List.head?_reverse, hb]; rfl

theorem setTypesXY_scene (k : Lk A s.p.g L) {x y w : Nat} {P Q : List Nat} (h : Cyc L (fun x => endIn false (L x)) (fun x => endIn true (L x)) R (x :: P ++ w :: Q ++ [y]))
    (hr : s.ic.r = R) (hx : s.ic.x = x) (hy : s.ic.y = y) (hw : s.ic.w = w) :
    Ok s.setTypesXY fun s' => s'.ic = s.ic ∧ s'.p.VI = s.p.VI ∧ s'.roots = s.roots ∧ SameE s.p.g s'.p.g ∧ Fr A s.p.g s'.p.g ∧
      (∀ z ∈ x :: P, ob s'.p.g z = 2) ∧ ∀ z ∈ Q ++ [y], ob s'.p.g z = 6 := by
  unfold setTypesXY
  rw [hr, hx, hy, hw]
  have hnd := h.nodup
  have hnd1 : (x :: P ++ w :: Q ++ [y]).Nodup := (List.nodup_cons.1 hnd).2
  have hnd2 : ((x :: P) ++ (w :: (Q ++ [y]))).Nodup := by simpa using hnd1
  have hA := List.nodup_append.1 hnd2
  have hC := List.nodup_cons.1 hA.2.1
  refine Ok.ite (fun _ => Ok.fail) fun h0 => Ok.bind ((clearTypes_fr (A := A) R).and (clearTypes_sameE R)) fun g1 ⟨f1, e1⟩ => ?_
  have h1 : R :: (x :: P ++ w :: Q ++ [y]) ++ [R] = [] ++ R :: x :: (P ++ w :: (Q ++ [y] ++ [R])) := by simp
  refine Ok.bind (h.step (k.fr f1) h1 (prev := true) rfl) fun ⟨z1, p1⟩ hz1 => ?_
  obtain ⟨rfl, -, q1⟩ : z1 = x ∧ _ ∧ _ := hz1
  have hs1 := typeSide_ob (X := z1) (W := w) h (.inl rfl : (2 : Nat) = 2 ∨ 2 = 6) (T := Q ++ [y] ++ [R]) (g1.vSize + 1) (z1 :: P) [R] g1 z1 p1 10 (k.fr f1) (by simp) (by simp) q1 (.inr rfl)
    (fun hh => hA.2.2 w hh w (by simp) rfl) hA.1
  refine Ok.bind ((typeSide_fr (A := A) z1 w 2 (g1.vSize + 1) g1 z1 p1 10).and ((typeSide_sameE z1 w 2 (g1.vSize + 1) g1 z1 p1 10).and hs1)) fun g2 ⟨f2, e2, o2⟩ => ?_
  have hrev : (z1 :: P ++ w :: Q ++ [y]).reverse = y :: (Q.reverse ++ w :: (P.reverse ++ [z1])) := by simp
  have h2 : R :: (z1 :: P ++ w :: Q ++ [y]).reverse ++ [R] = [] ++ R :: y :: (Q.reverse ++ w :: (P.reverse ++ [z1]) ++ [R]) := by rw [hrev]; simp
  have k2 := (k.fr f1).fr f2
  refine Ok.bind (h.rev.step k2 h2 (prev := false) rfl) fun ⟨z2, p2⟩ hz2 => ?_
  obtain ⟨rfl, -, q2⟩ : z2 = y ∧ _ ∧ _ := hz2
  have hC2 : (z2 :: Q.reverse).Nodup := by
    have : (z2 :: Q).Nodup := by
      have := hC.2
      rw [List.nodup_append] at this
      exact List.nodup_cons.2 ⟨fun hh => this.2.2 z2 hh z2 (by simp) rfl, this.1⟩
    rw [List.nodup_cons] at this ⊢
    exact ⟨fun hh => this.1 (List.mem_reverse.1 hh), List.nodup_reverse.2 this.2⟩
  have hs2 := typeSide_ob (X := z2) (W := w) h.rev (.inr rfl : (6 : Nat) = 2 ∨ 6 = 6) (T := P.reverse ++ [z1] ++ [R]) (g2.vSize + 1) (z2 :: Q.reverse) [R] g2 z2 p2 14 k2 (by rw [hrev]; simp) (by simp) q2
    (.inr rfl) (fun hh => hC.1 (by simp at hh ⊢; tauto)) hC2
  refine Ok.bind ((typeSide_fr (A := A) z2 w 6 (g2.vSize + 1) g2 z2 p2 14).and ((typeSide_sameE z2 w 6 (g2.vSize + 1) g2 z2 p2 14).and hs2)) fun g3 ⟨f3, e3, o3⟩ => ?_
  refine Ok.ret ⟨rfl, rfl, rfl, e3.trans (e2.trans e1), f1.trans (f2.trans f3), ?_, ?_⟩
  · intro z hz
    show ob g3 z = 2
    rw [o3.2 z, o2.1 z hz]
    intro hh
    exact hA.2.2 z hz z (by simp at hh ⊢; tauto) rfl
  · intro z hz
    exact o3.1 z (by simp at hz ⊢; tauto)

theorem popRoot_below (hb : Below B g) {c0 : Nat} (h0 : 1 ≤ c0) : Ens (popRoot g (c0 + B.N)) fun r => (∃ T, r.2 = { g with stack := T }) ∧ ∃ c, 1 ≤ c ∧ r.1 = c + B.N := by
  unfold popRoot
  rcases hb with hb | ⟨a, c, T, h1, hb⟩
  · rw [if_pos hb]; exact Ens.some ⟨⟨_, rfl⟩, c0, h0, rfl⟩
  · rw [if_neg (by rw [hb]; simp)]
    have e1 : g.pop = some (a, { g with stack := (c + B.N) :: T }) := by unfold pop; rw [hb]
    have e2 : Graph.pop { g with stack := (c + B.N) :: T } = some (c + B.N, { g with stack := T }) := rfl
    rw [e1]
    show Ens (Graph.pop { g with stack := (c + B.N) :: T }) _
    rw [e2]
    exact Ens.some ⟨⟨T, rfl⟩, c, h1, rfl⟩

/-- The context of the isolation. -/
theorem initContext_play (hB : NoLoop B) (hn : ¬ B.A 0) (st : St Pl s0 G fw PR v) (rg : Rings B s0 G) (dn : Dn Pl s0 G fw PR v) (hap : B.ap = true) (hvi : s.p.VI = s0.p.VI)
    (hro : s.roots = s0.roots) (hf : Fr B.A s0.p.g s.p.g) (hb : Below B s.p.g) {c0 : Nat} (h0 : 1 ≤ c0)
    (hT : Tag B.A t (fun _ => False) s.p.g) (ht : ∀ e, B.A e → t e = (s0.p.g.E e).flags ||| 1) (hs : ∀ z, 1 ≤ z → z ≤ B.N → ¬ Seen s.p.g z) :
    Ok (s.initContext true v (c0 + B.N)) fun s' => ∃ c x P w Q y L, Scene Pl G fw PR v c x P w Q y L t s' := by
  obtain ⟨hP, hI⟩ := Part.start hB hn st dn
  have m0 : Mv B.A s0 s := ⟨hf, fun x => ⟨(s0.p.VI x).futurePertinentChild, by rw [hvi]⟩⟩
  replace hP := hP.mv m0
  replace hI := hI.mv m0
  unfold initContext
  refine Ok.bind (popRoot_below hb h0) fun ⟨R, g1⟩ ⟨⟨T1, hg1⟩, c, hc, hR⟩ => ?_
  dsimp only at hR hg1 ⊢
  subst hR
  have f1 : Fr B.A s.p.g g1 := by rw [hg1]; exact fr_stack _ _
  have e1 : SameE s.p.g g1 := by rw [hg1]; rfl
  have m1 : Mv B.A s ((s.setG g1).setIC { v := v, r := c + B.N }) := (Mv.setG s f1).trans (Mv.setIC _ _)
  have r1 : Rep0 B ((s.setG g1).setIC { v := v, r := c + B.N }) G := by
    refine .clear st.rep (hf.trans f1) fun e he => ?_
    show (g1.E e).flags ||| 1 = _
    rw [hg1]
    show (s.p.g.E e).flags ||| 1 = _
    rw [(hT e he).1, ht e he]
  refine Ok.bind ((orientKeep_turn hB r1 (hP.mv m1) (hI.mv m1) hc).and (orientKeep_lo _)) fun s2 ⟨⟨dn2, ha, tu⟩, lo2⟩ => ?_
  have T2 : Tag B.A t (fun _ => False) s2.p.g := (hT.congr e1).flags fun e _ => tu.flags e
  refine Ok.bind ((clearBicomp_fr (A := B.A) (c + B.N)).and ((clearBicomp_tag T2 (c + B.N)).and (clearBicomp_lo _))) fun g3 ⟨f3, T3, lo3⟩ => ?_
  have m3 := Mv.setG s2 f3
  have P3 := tu.part.mv m3
  by_cases hlive : G.Live B.N c
  · obtain ⟨xs, hcy, hin, hful⟩ := cyc_facing st rg hap hlive ha
    have hne : xs ≠ [] := by
      rintro rfl
      have h1 : twin (endIn false (facing G (G.o (c + B.N)) dn2 (c + B.N))) = endIn true (facing G (G.o (c + B.N)) dn2 (c + B.N)) := by
        have := hcy.chain
        simpa using this
      have h2 := hcy.ne (c + B.N) (by simp)
      exact P3.lk.apart _ _ (endIn_mem' h2 false) (h1 ▸ endIn_mem' h2 true)
    refine Ok.bind (activeVertices_cyc P3.lk hcy hne) fun s4 ⟨x, y, h4, hx, hy⟩ => ?_
    have P4 : Part B s4 (facing G (G.o (c + B.N)) dn2) fw := by rw [h4]; exact P3.mv (Mv.setIC _ _)
    have hic : s4.ic = { v := v, r := c + B.N, x := x, y := y } := by
      rw [h4]
      show { s2.ic with x := x, y := y } = _
      rw [tu.ic]; rfl
    obtain ⟨T, rfl⟩ : ∃ T, xs = x :: T := by
      cases xs with
      | nil => cases hx
      | cons a T => simp at hx; exact ⟨T, by rw [hx]⟩
    have hw : Ens s4.pertinentVertex fun w => w = 0 ∨ (w ≠ y ∧ ∃ P Q, T = P ++ w :: Q) := by
      unfold pertinentVertex
      obtain ⟨a, Q, hQ⟩ : ∃ a Q, T ++ [c + B.N] = a :: Q := List.exists_cons_of_ne_nil (by simp)
      have hstep : (c + B.N) :: (x :: T) ++ [c + B.N] = [c + B.N] ++ x :: a :: Q := by simp [hQ]
      rw [hic]
      refine Ens.bind (hcy.step P4.lk hstep (prev := true) rfl) fun ⟨z, p⟩ hz => ?_
      obtain ⟨rfl, -, h2⟩ : z = a ∧ _ ∧ endIn (!p) _ = _ := hz
      refine (findPertinent_cyc P4 hcy (by omega) (Z := [x]) _ [] Q z p (by simp [hQ]) h2).mono fun w hw => hw.imp id fun ⟨h1, P, Q, h3⟩ => ⟨?_, P, Q, ?_⟩
      · rw [hic] at h1; exact h1
      · simpa using h3
    refine Ok.bind hw fun w hw => ?_
    by_cases hw0 : w = 0
    · subst hw0
      refine (setTypesXY_spec (A := B.A)).mono fun s6 h6 => absurd rfl h6.2.2.2.2.2
    obtain ⟨hwy, P, Q', rfl⟩ := hw.resolve_left hw0
    obtain ⟨Q, rfl⟩ : ∃ Q, Q' = Q ++ [y] := by
      rcases List.eq_nil_or_concat Q' with rfl | ⟨l, z, rfl⟩
      · exfalso
        rw [show x :: (P ++ [w]) = (x :: P) ++ [w] from rfl, List.getLast?_append] at hy
        simp at hy
        exact hwy hy
      · rw [List.concat_eq_append] at hy ⊢
        rw [show x :: (P ++ w :: (l ++ [z])) = (x :: P ++ w :: l) ++ [z] by simp, List.getLast?_append] at hy
        simp at hy
        exact ⟨l, by rw [hy]⟩
    have hxs : x :: (P ++ w :: (Q ++ [y])) = x :: P ++ w :: Q ++ [y] := by simp
    rw [hxs] at hcy hin hful
    have hic5 : (s4.setIC { s4.ic with w := w }).ic = { v := v, r := c + B.N, x := x, y := y, w := w } := by
      show { s4.ic with w := w } = _
      rw [hic]
    refine ((setTypesXY_scene (s := s4.setIC { s4.ic with w := w }) (A := B.A) P4.lk hcy (by rw [hic5]) (by rw [hic5]) (by rw [hic5]) (by rw [hic5])).and
      (Q := fun s6 => Lo s4.p.g s6.p.g) fun r hr _ => setTypesXY_lo (s := s4.setIC { s4.ic with w := w }) r hr).mono fun s6 h6 => ?_
    obtain ⟨⟨i6, v6, ro6, e6, f6, l6, r6⟩, lo6⟩ := h6
    rw [hic5] at i6
    have hg4 : s4.p.g = g3 := by rw [h4]; rfl
    have m6 : Mv B.A s4 s6 := ⟨f6, fun z => ⟨(s4.p.VI z).futurePertinentChild, by rw [v6]; rfl⟩⟩
    have hvi4 : s4.p.VI = s0.p.VI := by rw [h4]; exact tu.vi.trans hvi
    have hro4 : s4.roots = s0.roots := by rw [h4]; exact tu.roots.trans hro
    have play4 : Play Pl fw PR v (facing G (G.o (c + B.N)) dn2) t s4 fun _ => False := by
      refine ⟨P4, by rw [hg4]; exact T3, ?_, ?_⟩
      · intro z h1 h2 h3
        have : Embed.pe s4 z = Embed.pe s0 z := by unfold Embed.pe; rw [hvi4]
        rw [this] at h3 ⊢
        exact dn.pe z h1 h2 h3
      · rw [hro4]
        exact st.prl.congr rfl (fun z _ _ => by unfold pr; rw [hvi4]) fun _ _ _ => ⟨rfl, rfl⟩
    refine ⟨c, x, P, w, Q, y, facing G (G.o (c + B.N)) dn2, ⟨st.good, hlive, hcy, hin, ?_, ?_, ?_, dn.reg, st.sub, ?_⟩,
      play4.mv m6 ro6 (play4.tag.congr e6), by rw [i6], by rw [i6], by rw [i6], by rw [i6], l6, r6, ?_⟩
    · intro k hk; exact mem_facing.2 (st.rep.foot k hk)
    · intro k hk; exact mem_facing.2 (st.rep.hold k hk)
    · intro e he
      rw [ht e he, type_or_one]
      exact st.rep.typ' e he
    · intro a ha' e he
      have he := mem_facing.1 he
      obtain ⟨hA, hd⟩ := mem_raw.1 he
      obtain ⟨b, hb, hcb⟩ := st.good.pair a _ hd
      rw [(hin a ha').2.2] at hcb
      have hb1 := st.good.dom b (List.ne_nil_of_mem hb)
      refine ⟨b, ?_, mem_facing.2 (mem_raw'.2 hb)⟩
      by_cases hbN : b ≤ B.N
      · refine List.mem_cons_of_mem _ (hful b ?_)
        have := st.all hap b hb1.1 hbN (by rw [hcb]; exact hlive)
        rwa [hcb] at this
      · have hk : G.Live B.N (b - B.N) := ⟨by omega, by rw [Nat.sub_add_cancel (by omega)]; exact List.ne_nil_of_mem hb⟩
        have h1 := (st.good.root _ hk).2.2
        rw [Nat.sub_add_cancel (by omega), hcb] at h1
        have : b = c + B.N := by omega
        rw [this]; exact List.mem_cons_self
    · intro z h1 h2 hh
      have : Seen g1 z := lo2 z (lo3 z (by rw [← hg4]; exact lo6 z hh))
      rw [hg1] at this
      exact hs z h1 h2 this
  · have hnil : facing G (G.o (c + B.N)) dn2 (c + B.N) = [] := by
      have : raw G (c + B.N) = [] := by
        by_contra hh
        exact hlive ⟨hc, fun h' => hh (raw_nil.2 h')⟩
      unfold facing; rw [this]; simp
    refine Ok.bind (activeVertices_spec P3.lk true (c + B.N)) fun s4 ⟨m4, x, y, hic, hx, hy⟩ => Ok.skip fun w _ => (setTypesXY_spec (A := B.A)).mono fun s6 h6 => ?_
    have : x ≠ 0 := by
      have := h6.2.2.2.1
      rw [show (s4.setIC { s4.ic with w := w }).ic.x = s4.ic.x from rfl, hic] at this
      exact this
    exact absurd hnil (hx.resolve_left this).1

theorem clearFlags_stack : Ens (clearFlags g) fun g' => g'.stack = g.stack := by
  have hV : ∀ (g : Graph) (z : Nat), Ens (g.clearVisited z) fun g' => g'.stack = g.stack := by
    intro g z
    unfold clearVisited
    refine Ens.skip fun r _ => ?_
    unfold wrV
    exact Ens.ite (fun _ => Ens.some rfl) fun _ => Ens.none
  have hE : ∀ (g : Graph) (z : Nat), Ens (clearEdgeVisited g z) fun g' => g'.stack = g.stack := by
    intro g z
    unfold clearEdgeVisited
    refine Ens.skip fun r _ => ?_
    unfold wrE
    exact Ens.ite (fun _ => Ens.some rfl) fun _ => Ens.none
  unfold clearFlags
  refine Ens.bind (P := fun g' => g'.stack = g.stack) (Ens.fold _ rfl fun a c h => (hV _ _).mono fun _ h' => h'.trans h) fun _ h => ?_
  exact Ens.fold _ h fun a c h => (hE _ _).mono fun _ h' => h'.trans h

end Verif.Isolate
