import Verif.Map.Join
import Verif.Spec.DFS
import Mathlib.Data.List.Basic

/-
The state of the embedder, ideally: every biconnected component oriented alike. `L x` is the list of arcs of vertex `x` in
that orientation, `σ` the rotation it gives, and for a component with root `c + N` the outer face leaves every vertex by its
first arc; `X c` are the vertices on the outer face that are still linked.
-/
namespace Verif.Embed
open Equiv Equiv.Perm Verif.Map Function
open Verif.Props (AncEq)

set_option linter.unusedSectionVars false

variable {D : Type} [Finite D] [DecidableEq D]

/-- Rotation and lists agree, and the map is plane. -/
structure Core (α σ : Perm D) (L : Nat → List D) : Prop where
  flat : Flat σ α
  orbit : ∀ x, Orbit σ (L x)
  nodup : ∀ x, (L x).Nodup
  disj : ∀ x y d, d ∈ L x → d ∈ L y → x = y
  out : ∀ d, (∀ x, d ∉ L x) → σ d = d

section
variable {α σ : Perm D} {L : Nat → List D}

omit [DecidableEq D] in
theorem Core.apart (h : Core α σ L) {x y : Nat} {p q : D} (hxy : x ≠ y) (hp : p ∈ L x) (hq : q ∈ L y) :
    ¬ SameCycle σ p q :=
  fun hs => hxy (h.disj x y q (((h.orbit x).same_mem hs).1 hp) hq)

theorem Core.merge (hα : ∀ d, α (α d) = d) (h : Core α σ L) {Z R : Nat} {p q : D} {z r : List D} (hZR : Z ≠ R)
    (hZ : L Z = p :: z) (hR : L R = q :: r) (hc : ¬ (joined σ α) p q ∨ SameCycle (σ * α) p q) :
    Core α (swap p q * σ) (update (update L R []) Z (p :: z ++ q :: r)) := by
  have hp : p ∈ L Z := by rw [hZ]; simp
  have hq : q ∈ L R := by rw [hR]; simp
  have hnd : (p :: z ++ q :: r).Nodup := by
    rw [List.nodup_append]
    refine ⟨hZ ▸ h.nodup Z, hR ▸ h.nodup R, ?_⟩
    intro a ha b hb hab
    subst hab
    exact hZR (h.disj Z R a (hZ ▸ ha) (hR ▸ hb))
  have hL : ∀ x, update (update L R []) Z (p :: z ++ q :: r) x = if x = Z then p :: z ++ q :: r else if x = R then [] else L x := by
    intro x
    rw [update_apply]
    split
    · rfl
    · rw [update_apply]
  refine ⟨h.flat.join hα (h.apart hZR hp hq) hc, ?_, ?_, ?_, ?_⟩
  · intro x
    rw [hL]
    split
    · exact (hZ ▸ h.orbit Z).glue (hR ▸ h.orbit R) hnd
    · split
      · exact orbit_nil _
      · next h1 h2 =>
        exact (h.orbit x).off (fun hh => h1 (h.disj x Z p hh hp)) (fun hh => h2 (h.disj x R q hh hq))
  · intro x
    rw [hL]
    split
    · exact hnd
    · split
      · exact List.nodup_nil
      · exact h.nodup x
  · intro x y d
    rw [hL, hL]
    have key : ∀ w, d ∈ (if w = Z then p :: z ++ q :: r else if w = R then [] else L w) →
        (w = Z ∧ (d ∈ L Z ∨ d ∈ L R)) ∨ (w ≠ Z ∧ w ≠ R ∧ d ∈ L w) := by
      intro w hw
      split at hw
      · next h1 => exact .inl ⟨h1, by rw [hZ, hR]; exact List.mem_append.1 hw⟩
      · next h1 =>
        split at hw
        · simp at hw
        · next h2 => exact .inr ⟨h1, h2, hw⟩
    intro h1 h2
    rcases key x h1 with ⟨rfl, h3⟩ | ⟨a1, a2, a3⟩ <;> rcases key y h2 with ⟨rfl, h4⟩ | ⟨b1, b2, b3⟩
    · rfl
    · rcases h3 with h3 | h3
      · exact absurd (h.disj _ _ d b3 h3) b1
      · exact absurd (h.disj _ _ d b3 h3) b2
    · rcases h4 with h4 | h4
      · exact absurd (h.disj _ _ d a3 h4) a1
      · exact absurd (h.disj _ _ d a3 h4) a2
    · exact h.disj _ _ d a3 b3
  · intro d hd
    have hdZ : d ∉ L Z ∧ d ∉ L R := by
      have := hd Z
      rw [hL, if_pos rfl] at this
      rw [hZ, hR]
      exact not_or.1 fun hh => this (List.mem_append.2 hh)
    have hfix : σ d = d := h.out d fun x hx => by
      have := hd x
      rw [hL] at this
      split at this
      · next h1 => subst h1; exact hdZ.1 hx
      · split at this
        · next h1 => subst h1; exact hdZ.2 hx
        · exact this hx
    rw [mul_apply, hfix, swap_apply_of_ne_of_ne]
    · rintro rfl; exact hdZ.1 hp
    · rintro rfl; exact hdZ.2 hq

omit [DecidableEq D] in
theorem Core.single (h : Core α σ L) {K : Nat} {d : D} (hK : L K = []) (hd : ∀ x, d ∉ L x) :
    Core α σ (update L K [d]) := by
  have hL : ∀ x, update L K [d] x = if x = K then [d] else L x := fun x => update_apply _ _ _ _
  have hfix := h.out d hd
  refine ⟨h.flat, ?_, ?_, ?_, ?_⟩
  · intro x
    rw [hL]; split
    · rw [orbit_cons]; simp [hfix]
    · exact h.orbit x
  · intro x
    rw [hL]; split
    · simp
    · exact h.nodup x
  · intro x y e
    rw [hL, hL]
    intro h1 h2
    split at h1 <;> split at h2
    · omega
    · simp at h1; subst h1; exact absurd h2 (hd _)
    · simp at h2; subst h2; exact absurd h1 (hd _)
    · exact h.disj _ _ _ h1 h2
  · intro e he
    refine h.out e fun x hx => ?_
    have := he x
    rw [hL] at this
    split at this
    · next h1 => subst h1; rw [hK] at hx; simp at hx
    · exact this hx

omit [Finite D] [DecidableEq D] in
theorem Core.congr {L' : Nat → List D} (h : Core α σ L) (hL : ∀ x, L' x = L x) : Core α σ L' := by
  have : L' = L := funext hL
  rw [this]; exact h

omit [DecidableEq D] in
/-- A list moves to an empty place. -/
theorem Core.move (h : Core α σ L) {Z R : Nat} (hZR : Z ≠ R) (hZ : L Z = []) :
    Core α σ (update (update L R []) Z (L R)) := by
  have hL : ∀ x, update (update L R []) Z (L R) x = if x = Z then L R else if x = R then [] else L x := by
    intro x
    rw [update_apply]
    split
    · rfl
    · rw [update_apply]
  refine ⟨h.flat, ?_, ?_, ?_, ?_⟩
  · intro x
    rw [hL]; split
    · exact h.orbit _
    · split
      · exact orbit_nil _
      · exact h.orbit x
  · intro x
    rw [hL]; split
    · exact h.nodup _
    · split
      · exact List.nodup_nil
      · exact h.nodup x
  · intro x y e
    rw [hL, hL]
    intro h1 h2
    split at h1 <;> split at h2
    · omega
    · split at h2
      · simp at h2
      · next a b => exact absurd (h.disj _ _ _ h2 h1) b
    · split at h1
      · simp at h1
      · next a b => exact absurd (h.disj _ _ _ h1 h2) b
    · split at h1
      · simp at h1
      · split at h2
        · simp at h2
        · exact h.disj _ _ _ h1 h2
  · intro e he
    refine h.out e fun x hx => ?_
    have h1 := he x
    have h2 := he Z
    rw [hL] at h1 h2
    rw [if_pos rfl] at h2
    split at h1
    · next a => subst a; rw [hZ] at hx; simp at hx
    · split at h1
      · next a => subst a; exact h2 hx
      · exact h1 hx

omit [Finite D] [DecidableEq D] in
theorem orbit_inv {f : Perm D} {l : List D} (h : Orbit f l) : Orbit f⁻¹ l.reverse := by
  cases l with
  | nil => exact orbit_nil _
  | cons a l =>
    rw [orbit_cons] at h
    have h1 : ((a :: l).map f).reverse.map (f⁻¹ : Perm D) = (a :: l).reverse := by
      rw [← List.map_reverse, List.map_map]
      conv_rhs => rw [← List.map_id (a :: l).reverse]
      congr 1
      funext x
      exact pinv_p f x
    rw [h, List.reverse_append] at h1
    simp only [List.reverse_cons, List.reverse_nil, List.nil_append, List.cons_append] at h1
    have h2 : Orbit (f⁻¹ : Perm D) (a :: l.reverse) := by
      rw [orbit_cons]; exact h1
    have h3 : Orbit (f⁻¹ : Perm D) ([a] ++ l.reverse) := h2
    have := h3.comm
    rwa [List.reverse_cons]

omit [Finite D] [DecidableEq D] in
theorem orbit_congr {f g : Perm D} {l : List D} (h : Orbit f l) (hfg : ∀ x ∈ l, g x = f x) : Orbit g l := by
  unfold Orbit at *
  rw [← h]
  exact List.map_congr_left hfg

omit [Finite D] [DecidableEq D] in
theorem orbit_head {f : Perm D} {l : List D} (h : Orbit f l) : l.reverse.head? = l.head?.map (f⁻¹ : Perm D) := by
  cases l with
  | nil => rfl
  | cons a l =>
    rcases List.eq_nil_or_concat l with rfl | ⟨A, b, rfl⟩
    · rw [orbit_cons] at h
      simp only [List.map_cons, List.map_nil, List.nil_append, List.cons.injEq, and_true] at h
      simp only [List.reverse_cons, List.reverse_nil, List.nil_append, List.head?_cons, Option.map_some, Option.some.injEq]
      rw [eq_inv_iff_eq]; exact h
    · rw [List.concat_eq_append] at h ⊢
      have := h.last
      simp only [List.reverse_cons, List.reverse_append, List.reverse_nil, List.nil_append, List.cons_append, List.head?_cons,
        Option.map_some, Option.some.injEq]
      rw [eq_inv_iff_eq]; exact this

end

/-- The state. `cp x` is the component of vertex `x`, named by the child of its root. -/
structure Gh (D : Type) where
  σ : Perm D
  L : Nat → List D
  o : Nat → Bool
  cp : Nat → Nat
  X : Nat → List Nat

/-- First arc. -/
def Gh.hd (G : Gh D) (x : Nat) : Option D := (G.L x).head?

/-- The component of child `c` is separate: its root has arcs. -/
def Gh.Live (G : Gh D) (N c : Nat) : Prop := 1 ≤ c ∧ G.L (c + N) ≠ []

/-- The outer face of component `c`. -/
def Gh.Outer (G : Gh D) (α : Perm D) (N c : Nat) : Prop :=
  ∃ r l T, G.L (c + N) = r :: l ∧ Orbit (G.σ * α) (r :: T) ∧ (r :: T).Nodup ∧
    List.Sublist ((G.X c).map G.hd) (T.map some)

/-- Invariant of the ideal state. -/
structure Good (N : Nat) (par : Nat → Nat) (α : Perm D) (G : Gh D) : Prop where
  core : Core α G.σ G.L
  pair : ∀ x d, d ∈ G.L x → ∃ y, α d ∈ G.L y ∧ G.cp y = G.cp x
  dom : ∀ x, G.L x ≠ [] → 1 ≤ x ∧ x ≤ N + N
  root : ∀ c, G.Live N c → c ≤ N ∧ par c ≠ 0 ∧ G.cp (c + N) = c
  own : ∀ c, G.Live N c → G.cp c = c
  joined : ∀ x, 1 ≤ x → x ≤ N → par x ≠ 0 → ¬ G.Live N x → G.cp x = G.cp (par x)
  top : ∀ x, 1 ≤ x → x ≤ N → par x = 0 → G.cp x = x
  face : ∀ c, G.Live N c → G.Outer α N c
  bd : ∀ c, G.Live N c → ∀ x ∈ G.X c, 1 ≤ x ∧ x ≤ N ∧ G.cp x = c

section
variable {N : Nat} {par : Nat → Nat} {α : Perm D} {G : Gh D}

/-- Components an arc belongs to. -/
def Gh.lab (G : Gh D) (d : D) : Set Nat := { k | ∃ x, d ∈ G.L x ∧ G.cp x = k }

omit [Finite D] [DecidableEq D] in
theorem lab_eq (hc : ∀ x y d, d ∈ G.L x → d ∈ G.L y → x = y) {x : Nat} {d : D} (h : d ∈ G.L x) : G.lab d = {G.cp x} := by
  ext k
  constructor
  · rintro ⟨y, hy, rfl⟩; rw [hc _ _ _ hy h]; rfl
  · rintro rfl; exact ⟨x, h, rfl⟩

omit [DecidableEq D] in
theorem Good.lab_rot (h : Good N par α G) (d : D) : G.lab (G.σ d) = G.lab d := by
  by_cases hd : ∃ x, d ∈ G.L x
  · obtain ⟨x, hx⟩ := hd
    rw [lab_eq h.core.disj hx, lab_eq h.core.disj ((h.core.orbit x).mem hx)]
  · rw [h.core.out d (fun x hx => hd ⟨x, hx⟩)]

omit [DecidableEq D] in
theorem Good.lab_pair (hα : ∀ d, α (α d) = d) (h : Good N par α G) (d : D) : G.lab (α d) = G.lab d := by
  by_cases hd : ∃ x, d ∈ G.L x
  · obtain ⟨x, hx⟩ := hd
    obtain ⟨y, hy, hc⟩ := h.pair x d hx
    rw [lab_eq h.core.disj hx, lab_eq h.core.disj hy, hc]
  · have hd' : ¬ ∃ x, α d ∈ G.L x := by
      rintro ⟨x, hx⟩
      obtain ⟨y, hy, _⟩ := h.pair x _ hx
      rw [hα] at hy
      exact hd ⟨y, hy⟩
    ext k
    constructor
    · rintro ⟨y, hy, _⟩; exact absurd ⟨y, hy⟩ hd'
    · rintro ⟨y, hy, _⟩; exact absurd ⟨y, hy⟩ hd

omit [DecidableEq D] in
theorem Good.lab_joined (hα : ∀ d, α (α d) = d) (h : Good N par α G) {d d' : D} (hj : (Map.joined G.σ α) d d') :
    G.lab d = G.lab d' := by
  have : Map.joined G.σ α ≤ Setoid.ker G.lab := by
    refine sup_le ?_ ?_
    · exact cycle_le fun x => (h.lab_rot x).symm
    · exact cycle_le fun x => (h.lab_pair hα x).symm
  exact this hj

omit [DecidableEq D] in
theorem Good.lab_face (hα : ∀ d, α (α d) = d) (h : Good N par α G) {d d' : D} (hs : SameCycle (G.σ * α) d d') :
    G.lab d = G.lab d' := by
  have : SameCycle.setoid (G.σ * α) ≤ Setoid.ker G.lab := by
    refine cycle_le fun x => ?_
    show G.lab x = G.lab (G.σ (α x))
    rw [h.lab_rot, h.lab_pair hα]
  exact this hs

omit [DecidableEq D] in
/-- Different components are not joined. -/
theorem Good.apart (hα : ∀ d, α (α d) = d) (h : Good N par α G) {x y : Nat} {d d' : D} (hd : d ∈ G.L x) (hd' : d' ∈ G.L y)
    (hc : G.cp x ≠ G.cp y) : ¬ (Map.joined G.σ α) d d' := by
  intro hj
  have := h.lab_joined hα hj
  rw [lab_eq h.core.disj hd, lab_eq h.core.disj hd'] at this
  exact hc (Set.singleton_injective this)

/-- A face is in one component. -/
theorem Good.face_lab (hα : ∀ d, α (α d) = d) (h : Good N par α G) {x : Nat} {r d : D} {l : List D}
    (ho : Orbit (G.σ * α) l) (hr : r ∈ l) (hx : r ∈ G.L x) (hd : d ∈ l) : G.lab d = {G.cp x} := by
  rw [← h.lab_face hα (ho.same hr hd), lab_eq h.core.disj hx]

theorem Good.face_not_mem (hα : ∀ d, α (α d) = d) (h : Good N par α G) {x y : Nat} {r d : D} {l : List D}
    (ho : Orbit (G.σ * α) l) (hr : r ∈ l) (hx : r ∈ G.L x) (hd : d ∈ G.L y) (hxy : G.cp y ≠ G.cp x) : d ∉ l := by
  intro hf
  have := h.face_lab hα ho hr hx hf
  rw [lab_eq h.core.disj hd] at this
  exact hxy (Set.singleton_injective this)

theorem Good.face_fresh (hα : ∀ d, α (α d) = d) (h : Good N par α G) {x : Nat} {r d : D} {l : List D}
    (ho : Orbit (G.σ * α) l) (hr : r ∈ l) (hx : r ∈ G.L x) (hd : ∀ y, d ∉ G.L y) : d ∉ l := by
  intro hf
  have := h.face_lab hα ho hr hx hf
  have h2 : G.cp x ∈ G.lab d := by rw [this]; rfl
  obtain ⟨y, hy, _⟩ := h2
  exact hd y hy

omit [DecidableEq D] in
/-- Components are subtrees: the component of `x` is named by an ancestor of `x`. -/
theorem Good.anc (hpar : ∀ c, 1 ≤ c → c ≤ N → par c < c) (h : Good N par α G) :
    ∀ x, 1 ≤ x → x ≤ N → AncEq par (G.cp x) x := by
  intro x
  induction x using Nat.strong_induction_on with
  | _ x ih =>
    intro h1 h2
    by_cases hp : par x = 0
    · rw [h.top x h1 h2 hp]; exact .refl _
    · by_cases hl : G.Live N x
      · rw [h.own x hl]; exact .refl _
      · rw [h.joined x h1 h2 hp hl]
        have hlt := hpar x h1 h2
        exact .up hp (ih (par x) hlt (Nat.one_le_iff_ne_zero.2 hp) (by omega))

theorem ancEq_le (hpar : ∀ c, 1 ≤ c → c ≤ N → par c < c) {a x : Nat} (h : AncEq par a x) (h1 : 1 ≤ x) (h2 : x ≤ N) : a ≤ x := by
  induction h with
  | refl => exact le_rfl
  | @up b hp _ ih =>
    have := hpar b h1 h2
    have := ih (Nat.one_le_iff_ne_zero.2 hp) (by omega)
    omega

omit [DecidableEq D] in
theorem Good.cp_le (hpar : ∀ c, 1 ≤ c → c ≤ N → par c < c) (h : Good N par α G) {x : Nat} (h1 : 1 ≤ x) (h2 : x ≤ N) :
    G.cp x ≤ x := ancEq_le hpar (h.anc hpar x h1 h2) h1 h2

omit [Finite D] [DecidableEq D] in
theorem sublist_split {E : Type} {z : E} {P Q A C : List E} (h : List.Sublist (P ++ z :: Q) (A ++ z :: C)) (hA : z ∉ A)
    (hC : z ∉ C) : List.Sublist P A ∧ List.Sublist Q C := by
  induction A generalizing P with
  | nil =>
    cases P with
    | nil =>
      exact ⟨List.Sublist.refl _, by
        rw [List.nil_append, List.nil_append] at h
        rcases List.sublist_cons_iff.1 h with h | ⟨r, h1, h2⟩
        · exact absurd (h.subset (by simp)) hC
        · simp at h1; rw [h1]; exact h2⟩
    | cons p P =>
      exfalso
      rw [List.cons_append, List.nil_append] at h
      rcases List.sublist_cons_iff.1 h with h | ⟨r, h1, h2⟩
      · exact hC (h.subset (by simp))
      · simp at h1; exact hC (h2.subset (h1.2 ▸ by simp))
  | cons a A ih =>
    simp only [List.mem_cons, not_or] at hA
    rw [List.cons_append] at h
    rcases List.sublist_cons_iff.1 h with h | ⟨r, h1, h2⟩
    · obtain ⟨i1, i2⟩ := ih h hA.2
      exact ⟨i1.cons a, i2⟩
    · cases P with
      | nil => simp at h1; exact absurd h1.1 hA.1
      | cons p P =>
        simp at h1
        obtain ⟨rfl, rfl⟩ := h1
        obtain ⟨i1, i2⟩ := ih h2 hA.2
        exact ⟨i1.cons_cons p, i2⟩

omit [Finite D] [DecidableEq D] in
theorem hd_mem {x : Nat} {d : D} (h : G.hd x = some d) : d ∈ G.L x := List.mem_of_mem_head? h

omit [DecidableEq D] in
theorem Good.X_nodup (h : Good N par α G) {c : Nat} (hc : G.Live N c) : (G.X c).Nodup := by
  obtain ⟨r, l, T, _, _, h4, h5⟩ := h.face c hc
  have : (T.map some).Nodup := (List.nodup_map_iff (Option.some_injective D)).2 (List.nodup_cons.1 h4).2
  exact List.Nodup.of_map _ (h5.nodup this)

end
end Verif.Embed
