import Verif.IO.RoundTrip
import Verif.IO.ReadAny
import Verif.IO.G6Read

/-
The adjacency matrix format: the rows written, and the graph made from the flags read.
-/
namespace Verif.Text
open Verif Verif.Graph Verif.SB Verif.Props

variable {σ : Type} {src : Src σ} {n : Nat}

/-- The graph with the edges `L` added in that order. -/
structure Built (n : Nat) (L : List (Nat × Nat)) (g : Graph) : Prop where
  reach : Reach g
  order : g.N = n
  cap : 6 ≤ g.arcCap
  flags : g.flags = 0
  undir : Undirected g
  count : g.M = L.length
  nbrs : ∀ w, IsVertex g w → neighbors g w = some (L.foldl (addFront w) [])
  nodup : L.Nodup
  range : ∀ p ∈ L, 1 ≤ p.1 ∧ p.1 < p.2 ∧ p.2 ≤ n

theorem Built.length {L : List (Nat × Nat)} (hn : L.Nodup) (h : ∀ p ∈ L, 1 ≤ p.1 ∧ p.1 < p.2 ∧ p.2 ≤ n) :
    L.length ≤ n * (n - 1) / 2 := by
  have hsub : L.Subperm (edgesOf n fun _ _ => true) :=
    List.Nodup.subperm hn fun p hp => edgesOf_mem.2 ⟨(h p hp).1, (h p hp).2.1, (h p hp).2.2, rfl⟩
  refine le_trans hsub.length_le ?_
  rw [← columnOffset_eq, ← cells_length]
  unfold edgesOf
  rw [List.length_map]
  exact List.length_filter_le _ _

/-- Assigning indexes does not matter. -/
theorem Built.mark {L : List (Nat × Nat)} {g : Graph} (h : Built n L g) (v x : Nat) :
    Built n L { g with V := Function.update g.V v { g.V v with index := x } } := by
  have hV : (fun w => { g.V w with index := (Function.update g.V v { g.V v with index := x } w).index, flags := (g.V w).flags }) =
      Function.update g.V v { g.V v with index := x } := by
    funext w
    by_cases hw : w = v
    · subst hw; simp
    · simp [Function.update_of_ne hw]
  have hr := Reach.mark (fun w => (Function.update g.V v { g.V v with index := x } w).index) (fun w => (g.V w).flags) h.reach
  rw [hV] at hr
  obtain ⟨rot, hI⟩ := h.reach.inv
  have hI' : Inv { g with V := Function.update g.V v { g.V v with index := x } } rot := by
    have := hI.mark (fun w => (Function.update g.V v { g.V v with index := x } w).index) (fun w => (g.V w).flags)
    rwa [hV] at this
  refine ⟨hr, h.order, h.cap, h.flags, ?_, h.count, ?_, h.nodup, h.range⟩
  · intro e he
    obtain ⟨w, hw⟩ := (live_iff hI').1 he
    exact h.undir e ((live_iff hI).2 ⟨w, hw⟩)
  · intro w hw
    have := h.nbrs w hw
    have hw' := (vSize_iff.1 hw).2
    rw [neighbors_eq hI' hw']
    rw [neighbors_eq hI hw'] at this
    exact this

/-- One more edge. -/
theorem Built.add {L : List (Nat × Nat)} {g : Graph} (h : Built n L g) {u v : Nat} (h1 : 1 ≤ u) (h2 : u < v) (h3 : v ≤ n)
    (hno : (u, v) ∉ L) : ∃ g', g.dynamicAddEdge (u : Nat) 0 (v : Nat) 0 {} = some (g', .ok) ∧ Built n (L ++ [(u, v)]) g' := by
  have hnd : (L ++ [(u, v)]).Nodup := by
    rw [List.nodup_append]
    refine ⟨h.nodup, by simp, ?_⟩
    intro a ha b hb hc
    simp only [List.mem_singleton] at hb
    subst hb; subst hc; exact hno ha
  have hrg : ∀ p ∈ L ++ [(u, v)], 1 ≤ p.1 ∧ p.1 < p.2 ∧ p.2 ≤ n := by
    intro p hp
    rcases List.mem_append.1 hp with hp | hp
    · exact h.range p hp
    · simp only [List.mem_singleton] at hp; subst hp; exact ⟨h1, h2, h3⟩
  have hlen := Built.length hnd hrg
  obtain ⟨g', a1, a2, a3, a4, a5, a6, a7, a8⟩ := addAll_spec [(u, v)] h.reach h.cap (by
    intro p hp
    simp only [List.mem_singleton] at hp; subst hp
    unfold IsVertex; rw [h.order]; constructor <;> constructor <;> simp only <;> omega) (by
    rw [h.count, h.order]; simpa using hlen)
  refine ⟨g', ?_, a2, by rw [a3, h.order], a5, by rw [a6, h.flags], a8 h.undir, by rw [a4, h.count]; simp, ?_, hnd, hrg⟩
  · simp only [addAll, Option.bind_eq_bind] at a1
    cases hd : g.dynamicAddEdge (u : Nat) 0 (v : Nat) 0 {} with
    | none => rw [hd] at a1; simp at a1
    | some p =>
      obtain ⟨g2, r⟩ := p
      rw [hd] at a1
      simp only [Option.bind_some, ite_not] at a1
      by_cases hr : r = .ok
      · subst hr; simp at a1; rw [a1]
      · rw [if_neg hr] at a1; simp at a1; exact absurd a1.2 hr
  · intro w hw
    have hw' : IsVertex g w := by unfold IsVertex at *; rw [← a3]; exact hw
    rw [a7 w _ hw' (h.nbrs w hw')]
    simp [List.foldl_append]

theorem Built.init (hn : 1 ≤ n) : Built n [] (Graph.init n (6 * n)) := by
  have hr := Reach.init n (6 * n) (by omega) (by omega)
  refine ⟨hr, rfl, by show 6 ≤ 6 * n; omega, rfl, undirected_empty hr rfl, rfl, fun w hw => neighbors_empty hr rfl hw, by simp, by simp⟩

/-- A source that gives the flags `bs`. -/
inductive Feed (src : Src σ) : σ → List Bool → σ → Prop
  | nil (t) : Feed src t [] t
  | cons {t t1 t' b bs} : src.flag t = some (t1, some (if b then 1 else 0)) → Feed src t1 bs t' → Feed src t (b :: bs) t'

theorem Feed.split : ∀ {as bs : List Bool} {t t' : σ}, Feed src t (as ++ bs) t' → ∃ m, Feed src t as m ∧ Feed src m bs t'
  | [], _, t, _, h => ⟨t, .nil _, h⟩
  | a :: as, bs, t, t', h => by
    cases h with
    | cons h1 h2 =>
      obtain ⟨m, k1, k2⟩ := h2.split
      exact ⟨m, .cons h1 k1, k2⟩

theorem Feed.join {as bs : List Bool} {t m t' : σ} (h : Feed src t as m) (h' : Feed src m bs t') : Feed src t (as ++ bs) t' := by
  induction h with
  | nil => exact h'
  | cons h1 _ ih => exact .cons h1 (ih h')

/-- The flags of row `v` from column `w` on. -/
def flagsFrom (nb : Nat → Nat → Bool) (v : Nat) : Nat → Nat → List Bool
  | 0, _ => []
  | k + 1, w => nb v w :: flagsFrom nb v k (w + 1)

/-- The flags of the rows from `v` on, `k` of them. -/
def rowsFrom (nb : Nat → Nat → Bool) (n : Nat) : Nat → Nat → List Bool
  | 0, _ => []
  | k + 1, v => flagsFrom nb v (n - v) (v + 1) ++ rowsFrom nb n k (v + 1)

theorem readRow_spec (nb : Nat → Nat → Bool) {v : Nat} (hv : 1 ≤ v) : ∀ (k w : Nat) (t t' : σ) (g : Graph) (f : Option Int) (L : List (Nat × Nat)),
    Built n L g → Feed src t (flagsFrom nb v k w) t' → v < w → w + k = n + 1 → (∀ p ∈ L, p.1 < v ∨ (p.1 = v ∧ p.2 < w)) →
    ∃ g' f' L', readRow src v k w t g f = some (t', g', f', .ok) ∧ Built n L' g' ∧
      ∀ p, p ∈ L' ↔ p ∈ L ∨ (p.1 = v ∧ w ≤ p.2 ∧ p.2 ≤ n ∧ nb v p.2 = true) := by
  intro k
  induction k with
  | zero =>
    intro w t t' g f L hB hF hvw hwk hL
    cases hF
    refine ⟨g, f, L, rfl, hB, fun p => ⟨.inl, ?_⟩⟩
    rintro (h | ⟨-, h1, h2, -⟩)
    · exact h
    · omega
  | succ k ih =>
    intro w t t' g f L hB hF hvw hwk hL
    cases hF with
    | cons h1 h2 =>
      rename_i t1
      have hno : (v, w) ∉ L := fun hc => by have := hL _ hc; simp only at this; omega
      unfold readRow
      rw [h1]
      cases hb : nb v w with
      | true =>
        obtain ⟨g1, e1, B1⟩ := hB.add hv hvw (by omega) hno
        obtain ⟨g', f', L', r1, r2, r3⟩ := ih (w + 1) t1 t' g1 (some 1) _ B1 h2 (by omega) (by omega) (by
          intro p hp
          rcases List.mem_append.1 hp with hp | hp
          · have := hL p hp; omega
          · simp only [List.mem_singleton] at hp; subst hp; simp)
        refine ⟨g', f', L', ?_, r2, ?_⟩
        · simp [e1, r1]
        · intro p
          rw [r3, List.mem_append, List.mem_singleton]
          obtain ⟨a, b⟩ := p
          simp only [Prod.mk.injEq]
          constructor
          · rintro ((h | ⟨rfl, rfl⟩) | ⟨h3, h4, h5, h6⟩)
            · exact .inl h
            · exact .inr ⟨rfl, le_refl _, by omega, hb⟩
            · exact .inr ⟨h3, by omega, h5, h6⟩
          · rintro (h | ⟨h3, h4, h5, h6⟩)
            · exact .inl (.inl h)
            · by_cases hbw : b = w
              · exact .inl (.inr ⟨h3, hbw⟩)
              · exact .inr ⟨h3, by omega, h5, h6⟩
      | false =>
        obtain ⟨g', f', L', r1, r2, r3⟩ := ih (w + 1) t1 t' g (some 0) L hB h2 (by omega) (by omega) (by
          intro p hp; have := hL p hp; omega)
        refine ⟨g', f', L', ?_, r2, ?_⟩
        · simp [r1]
        · intro p
          rw [r3]
          obtain ⟨a, b⟩ := p
          simp only
          constructor
          · rintro (h | ⟨h3, h4, h5, h6⟩)
            · exact .inl h
            · exact .inr ⟨h3, by omega, h5, h6⟩
          · rintro (h | ⟨h3, h4, h5, h6⟩)
            · exact .inl h
            · refine .inr ⟨h3, ?_, h5, h6⟩
              have : b ≠ w := fun hc => by rw [hc, hb] at h6; simp at h6
              omega

theorem readRows_spec (nb : Nat → Nat → Bool) : ∀ (k v : Nat) (t t' : σ) (g : Graph) (f : Option Int) (L : List (Nat × Nat)),
    Built n L g → Feed src t (rowsFrom nb n k v) t' → 1 ≤ v → v + k = n + 1 → (∀ p ∈ L, p.1 < v) →
    ∃ g' L', readRows src k v t g f = some (t', g', .ok) ∧ Built n L' g' ∧
      ∀ p, p ∈ L' ↔ p ∈ L ∨ (v ≤ p.1 ∧ p.1 < p.2 ∧ p.2 ≤ n ∧ nb p.1 p.2 = true) := by
  intro k
  induction k with
  | zero =>
    intro v t t' g f L hB hF hv hvk hL
    cases hF
    refine ⟨g, L, rfl, hB, fun p => ⟨.inl, ?_⟩⟩
    rintro (h | ⟨h1, h2, h3, -⟩)
    · exact h
    · omega
  | succ k ih =>
    intro v t t' g f L hB hF hv hvk hL
    obtain ⟨m, F1, F2⟩ := Feed.split hF
    have hvs : v < g.vSize := by unfold vSize; rw [hB.order]; omega
    have hr : g.rdV v = some (g.V v) := by unfold rdV; rw [if_pos hvs]
    have hB1 := hB.mark v v
    obtain ⟨g1, f1, L1, r1, r2, r3⟩ := readRow_spec nb hv (n - v) (v + 1) t m _ f L hB1 F1 (by omega) (by omega) (by
      intro p hp; have := hL p hp; omega)
    obtain ⟨g', L', s1, s2, s3⟩ := ih (v + 1) m t' g1 f1 L1 r2 F2 (by omega) (by omega) (by
      intro p hp
      rw [r3] at hp
      rcases hp with hp | ⟨hp, -⟩
      · have := hL p hp; omega
      · omega)
    refine ⟨g', L', ?_, s2, ?_⟩
    · have hw : g.wrV v { g.V v with index := v } = some { g with V := Function.update g.V v { g.V v with index := v } } := by
        unfold wrV; rw [if_pos hvs]
      unfold readRows
      rw [hr]
      simp only [Option.bind_eq_bind, Option.bind_some]
      rw [hw]
      simp only [Option.bind_some]
      change (readRow src v (g.N - v) (v + 1) t { g with V := Function.update g.V v { g.V v with index := v } } f).bind _ = _
      have hsub : g.N - v = n - v := by rw [hB.order]
      rw [hsub, r1]
      simp [s1]
    · intro p
      rw [s3, r3]
      obtain ⟨a, b⟩ := p
      simp only
      constructor
      · rintro ((h | ⟨rfl, h2, h3, h4⟩) | ⟨h2, h3, h4, h5⟩)
        · exact .inl h
        · exact .inr ⟨le_refl _, by omega, h3, h4⟩
        · exact .inr ⟨by omega, h3, h4, h5⟩
      · rintro (h | ⟨h2, h3, h4, h5⟩)
        · exact .inl (.inl h)
        · by_cases ha : a = v
          · subst ha; exact .inl (.inr ⟨rfl, by omega, h4, h5⟩)
          · exact .inr ⟨by omega, h3, h4, h5⟩

/-- The whole matrix. -/
theorem readAdjMatrix_spec (nb : Nat → Nat → Bool) (hn : 1 ≤ n) {t t1 t' : σ} (ho : src.number t = some (t1, some (n : Int)))
    (hF : Feed src t1 (rowsFrom nb n n 1) t') :
    ∃ s L, readAdjMatrix src t = some (t', some s, .ok) ∧ Built n L s.g ∧
      ∀ a b, (a, b) ∈ L ↔ 1 ≤ a ∧ a < b ∧ b ≤ n ∧ nb a b = true := by
  obtain ⟨g', L, r1, r2, r3⟩ := readRows_spec nb n 1 t1 t' (Graph.init n (6 * n)) none [] (Built.init hn) hF (le_refl _) (by omega) (by simp)
  refine ⟨{ g := g' }, L, ?_, r2, fun a b => by rw [r3]; simp⟩
  unfold readAdjMatrix readOrder
  rw [ho]
  have : newGraph (n : Int) = some { g := Graph.init n (6 * n) } := by
    unfold newGraph; rw [if_neg (by omega)]; rfl
  simp only [Option.bind_eq_bind, Option.bind_some, Option.getD_some]
  change ((match newGraph (n : Int) with
    | none => some (t1, none, Res.notok)
    | some s => (readRows src s.g.N 1 t1 s.g none).bind fun x => some (x.1, some (s.setG x.2.1), x.2.2))) = _
  rw [this]
  simp only
  change (readRows src n 1 t1 (Graph.init n (6 * n)) none).bind _ = _
  rw [r1]
  rfl

/-- The graph built has the edges of the matrix. -/
theorem Built.isGraph {L : List (Nat × Nat)} {g : Graph} (h : Built n L g) {nb : Nat → Nat → Bool}
    (hL : ∀ a b, (a, b) ∈ L ↔ 1 ≤ a ∧ a < b ∧ b ≤ n ∧ nb a b = true) : IsGraph n (fun i j => nb (i + 1) (j + 1)) g := by
  have hmem : ∀ w x, x ∈ L.foldl (addFront w) [] ↔ (w, x) ∈ L ∨ (x, w) ∈ L := by
    intro w x; rw [foldl_addFront_mem]; simp
  refine ⟨h.order, ?_, h.undir, ?_⟩
  · intro w hw
    refine ⟨_, h.nbrs w hw, ?_, ?_, ?_, ?_⟩
    · exact foldl_addFront_nodup _ _ (by simp) h.nodup (fun p hp => (h.range p hp).2.1) (by simp)
    · rw [hmem]
      rintro (hc | hc) <;> (have := (h.range _ hc).2.1; simp only at this; omega)
    · intro x hx
      rw [hmem] at hx
      rw [h.order]
      rcases hx with hx | hx <;> (have := h.range _ hx; simp only at this; omega)
    · intro hlt
      apply List.eq_nil_iff_forall_not_mem.2
      intro x hx
      rw [hmem] at hx
      rw [h.order] at hlt
      rcases hx with hx | hx <;> (have := h.range _ hx; simp only at this; omega)
  · intro i j hij hj
    rw [h.order] at hj
    have hw : IsVertex g (i + 1) := by unfold IsVertex; rw [h.order]; omega
    unfold Adjacent
    rw [h.nbrs _ hw]
    have : (∃ l, some (L.foldl (addFront (i + 1)) []) = some l ∧ j + 1 ∈ l) ↔ j + 1 ∈ L.foldl (addFront (i + 1)) [] := by simp
    rw [this, hmem, hL, hL]
    constructor
    · intro hh; exact .inl ⟨by omega, by omega, by omega, hh⟩
    · rintro (hh | hh)
      · exact hh.2.2.2
      · omega

end Verif.Text
