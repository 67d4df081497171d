import Verif.Test.Kuratowski

/-
The test for subdivisions of K2,3 is exact for graphs without loops.
-/
namespace Verif
namespace Test
open Graph Map Equiv Equiv.Perm Props DFS

section
variable {g : Graph} {rot : Nat → List Nat} (h : WInv g rot)
include h

/-- The loop over the paths to the second image vertex. -/
theorem pathsToSecond_spec {verts : List Nat} (hv1 : 1 < verts.length) : ∀ (ps : List Nat) {F : Nat → Nat → Nat},
    (∀ w f, F w f / 2 = f / 2) → (∀ p ∈ ps, p < verts.length) →
    (∀ p ∈ ps, verts[p]! < g.vSize ∧ ∀ d : Dart rot, own g d = verts[p]! → Ends h d) →
    ∃ F' ok S, pathsToSecond verts ps (g.relabel F) = some (g.relabel F', ok) ∧
      (ok = true ↔ ∀ p ∈ ps, Conn h verts[p]! verts[1]!) ∧ Adds F F' S ∧
      (∀ w, S w → ∃ p ∈ ps, ∃ d : Dart rot, own g d = verts[p]! ∧ fin h d = verts[1]! ∧ (w = verts[p]! ∨ w ∈ ins h d)) ∧
      (ok = true → ∀ p ∈ ps, ∃ d : Dart rot, own g d = verts[p]! ∧ fin h d = verts[1]! ∧
        ∀ w, w = verts[p]! ∨ w ∈ ins h d → S w) := by
  intro ps
  induction ps with
  | nil =>
    intro F hF _ _
    exact ⟨F, true, fun _ => False, rfl, by simp, Adds.refl hF, fun _ hc => hc.elim, fun _ p hp => by cases hp⟩
  | cons p ps ih =>
    intro F hF hv hU
    have l1 := hv p (by simp)
    obtain ⟨u1, u2⟩ := hU p (by simp)
    have e1 : verts[p]? = some verts[p]! := by
      rw [List.getElem?_eq_getElem l1, getElem!_pos verts p l1]
    have e2 : verts[1]? = some verts[1]! := by
      rw [List.getElem?_eq_getElem hv1, getElem!_pos verts 1 hv1]
    unfold pathsToSecond
    rw [e1, e2]
    simp only [Option.bind_eq_bind, Option.bind_some]
    obtain ⟨F1, ok, t1, t2, t3⟩ := testPath_spec h verts[1]! u1 u2 hF
    rw [t1]
    simp only [Option.bind_some]
    cases ok with
    | false =>
      simp only [Bool.false_eq_true, if_false]
      obtain ⟨k1, k2⟩ := t3 rfl
      subst k1
      refine ⟨F1, false, fun _ => False, rfl, ⟨fun hc => (by cases hc), fun hc => ?_⟩, Adds.refl hF, fun _ hc => hc.elim,
        fun hc => by cases hc⟩
      obtain ⟨d, k3, k4⟩ := hc p (by simp)
      exact absurd k4 (k2 d k3)
    | true =>
      simp only [if_true]
      obtain ⟨d, k1, k2, k3⟩ := t2 rfl
      rw [setVisited_eq (show verts[p]! < (g.relabel F1).vSize from u1)]
      simp only [Option.bind_some]
      rw [relabel_relabel]
      have hone := Adds.one k3.high verts[p]!
      obtain ⟨F', ok, S, i1, i2, i3, i4, i5⟩ := ih hone.high (fun q hq => hv q (by simp [hq])) (fun q hq => hU q (by simp [hq]))
      refine ⟨F', ok, _, i1, ?_, (k3.trans hone).trans i3, ?_, ?_⟩
      · rw [i2]
        constructor
        · intro hh q hq
          rcases List.mem_cons.1 hq with rfl | hq
          · exact ⟨d, k1, k2⟩
          · exact hh q hq
        · intro hh q hq
          exact hh q (by simp [hq])
      · rintro w ((hw | hw) | hw)
        · exact ⟨p, by simp, d, k1, k2, .inr hw⟩
        · exact ⟨p, by simp, d, k1, k2, .inl hw⟩
        · obtain ⟨q, hq, hd⟩ := i4 w hw
          exact ⟨q, by simp [hq], hd⟩
      · intro hok q hq
        rcases List.mem_cons.1 hq with rfl | hq
        · refine ⟨d, k1, k2, fun w hw => ?_⟩
          rcases hw with hw | hw
          · exact .inl (.inr hw)
          · exact .inl (.inl hw)
        · obtain ⟨d', m1, m2, m3⟩ := i5 hok q hq
          exact ⟨d', m1, m2, fun w hw => .inr (m3 w hw)⟩

/-- The loop over the neighbours of the first image vertex. -/
theorem pickLoop_spec {u a1 a2 a3 : Nat} (hr : rot u = [a1, a2, a3]) (x1 x2 x3 x4 x5 : Nat) :
    ∃ e vs ok, g.getArc u false = some e ∧ pickLoop g g.eSize e 2 [x1, x2, x3, x4, x5] = some (vs, ok) ∧
      (ok = true ↔ (g.E a1).nbr ≠ x2 ∧ (g.E a2).nbr ≠ x2 ∧ (g.E a3).nbr ≠ x2) ∧
      (ok = true → vs = [x1, x2, (g.E a1).nbr, (g.E a2).nbr, (g.E a3).nbr]) := by
  have m1 : a1 ∈ rot u := by rw [hr]; simp
  have m2 : a2 ∈ rot u := by rw [hr]; simp
  have m3 : a3 ∈ rot u := by rw [hr]; simp
  have b1 := (h.links.arc u a1 m1).2
  have b2 := (h.links.arc u a2 m2).2
  have b3 := (h.links.arc u a3 m3).2
  have hu := (h.links.vert u a1 m1).2
  have hz : ∀ a ∈ rot u, a ≠ 0 := fun a ha hc => h.links.zero_not_mem u (hc ▸ ha)
  have hlen : 3 ≤ g.eSize := by
    have := nodup_length_le (h.links.nodup u) (n := g.eSize) (fun x hx => (h.links.arc u x hx).2)
    rw [hr] at this
    exact this
  obtain ⟨f, hf⟩ : ∃ f, g.eSize = f + 3 := ⟨g.eSize - 3, by omega⟩
  refine ⟨a1, ?_⟩
  have hfirst : g.getArc u false = some a1 := by rw [first_eq h hu, hr]; rfl
  have n1 : g.getAdj a1 false = some a2 := next_eq h.links (A := []) (K := [a2, a3]) hr
  have n2 : g.getAdj a2 false = some a3 := next_eq h.links (A := [a1]) (K := [a3]) hr
  have n3 : g.getAdj a3 false = some 0 := next_eq h.links (A := [a1, a2]) (K := []) hr
  rw [hf]
  unfold pickLoop
  rw [if_neg (hz a1 m1), getNbr_eq b1]
  simp only [Option.bind_eq_bind, Option.bind_some, wr, List.length_cons, List.length_nil]
  simp only [Nat.reduceAdd, Nat.reduceLT, if_true, List.set_cons_succ, List.set_cons_zero, Option.bind_some,
    List.getElem?_cons_succ, List.getElem?_cons_zero]
  by_cases c1 : (g.E a1).nbr = x2
  · rw [if_pos (by rw [c1])]
    exact ⟨_, false, hfirst, rfl, ⟨fun hc => (by cases hc), fun hc => absurd c1 hc.1⟩, fun hc => (by cases hc)⟩
  rw [if_neg (fun hc => c1 hc), n1]
  simp only [Option.bind_some]
  unfold pickLoop
  rw [if_neg (hz a2 m2), getNbr_eq b2]
  simp only [Option.bind_eq_bind, Option.bind_some, wr, List.length_cons, List.length_nil]
  simp only [Nat.reduceAdd, Nat.reduceLT, if_true, List.set_cons_succ, List.set_cons_zero, Option.bind_some,
    List.getElem?_cons_succ, List.getElem?_cons_zero]
  by_cases c2 : (g.E a2).nbr = x2
  · rw [if_pos (by rw [c2])]
    exact ⟨_, false, hfirst, rfl, ⟨fun hc => (by cases hc), fun hc => absurd c2 hc.2.1⟩, fun hc => (by cases hc)⟩
  rw [if_neg (fun hc => c2 hc), n2]
  simp only [Option.bind_some]
  unfold pickLoop
  rw [if_neg (hz a3 m3), getNbr_eq b3]
  simp only [Option.bind_eq_bind, Option.bind_some, wr, List.length_cons, List.length_nil]
  simp only [Nat.reduceAdd, Nat.reduceLT, if_true, List.set_cons_succ, List.set_cons_zero, Option.bind_some,
    List.getElem?_cons_succ, List.getElem?_cons_zero]
  by_cases c3 : (g.E a3).nbr = x2
  · rw [if_pos (by rw [c3])]
    exact ⟨_, false, hfirst, rfl, ⟨fun hc => (by cases hc), fun hc => absurd c3 hc.2.2⟩, fun hc => (by cases hc)⟩
  rw [if_neg (fun hc => c3 hc), n3]
  simp only [Option.bind_some]
  refine ⟨_, true, hfirst, ?_, ⟨fun _ => ⟨c1, c2, c3⟩, fun _ => rfl⟩, fun _ => rfl⟩
  cases f <;> rfl

/-! ### The darts at the middle vertices -/

/-- The step along a path from a vertex of another degree. -/
theorem step_len {d : Dart rot} (hs : Ends h d) (h2 : 0 < plen h d) :
    plen h (ph h d) + 1 = plen h d ∧ fin h (ph h d) = fin h d ∧ Ends h (ph h d) ∧
      ∀ w, w ∈ ins h d ↔ w = own g (ph h d) ∨ w ∈ ins h (ph h d) := by
  have hpow : ∀ j, (ph h ^ j) (ph h d) = (ph h ^ (j + 1)) d := fun j => by rw [pow_succ, mul_apply]
  have hl : plen h (ph h d) = plen h d - 1 := by
    refine len_eq ?_ ?_
    · intro i hi
      show Deg2 g ((ph h ^ (i + 1)) (ph h d))
      rw [hpow]
      exact plen_min h (by omega)
    · show ¬ Deg2 g ((ph h ^ (plen h d - 1 + 1)) (ph h d))
      rw [hpow, show plen h d - 1 + 1 + 1 = plen h d + 1 by omega]
      exact plen_spec h hs
  refine ⟨by omega, ?_, ⟨plen h d - 1, ?_⟩, ?_⟩
  · rw [fin_eq, fin_eq, hl, hpow, show plen h d - 1 + 1 + 1 = plen h d + 1 by omega]
  · show ¬ Deg2 g ((ph h ^ (plen h d - 1 + 1)) (ph h d))
    rw [hpow, show plen h d - 1 + 1 + 1 = plen h d + 1 by omega]
    exact plen_spec h hs
  · intro w
    rw [mem_ins, mem_ins, hl]
    constructor
    · rintro ⟨i, hi, rfl⟩
      cases i with
      | zero => left; rfl
      | succ i => right; exact ⟨i, by omega, by rw [hpow]⟩
    · rintro (rfl | ⟨i, hi, rfl⟩)
      · exact ⟨0, h2, rfl⟩
      · exact ⟨i + 1, by omega, by rw [hpow]⟩

/-- The darts at the first inner vertex of a path. -/
theorem mid_darts {d x : Dart rot} (hd : ¬ Deg2 g d) (hn : (rot (g.E d.1).nbr).length = 2)
    (hx : own g x = (g.E d.1).nbr) : (x = al h d ∧ fin h x = own g d ∧ Ends h x ∧ plen h x = 0) ∨ x = ph h d := by
  have hT : Deg2 g (al h d) := by unfold Deg2; rw [own_al]; exact hn
  rcases deg2_cases h (y := x) hT (by rw [own_al, hx]) with rfl | rfl
  · left
    have h1 : ph h (al h d) = sg h d := by show sg h (al h (al h d)) = _; rw [al_al]
    have hno : ¬ Deg2 g ((ph h ^ (0 + 1)) (al h d)) := by
      rw [zero_add, pow_one, h1]
      exact fun hc => hd (((thread h).same d).1 hc)
    have hl : plen h (al h d) = 0 := len_eq (fun i hi => by omega) hno
    refine ⟨rfl, ?_, ⟨0, hno⟩, hl⟩
    rw [fin_eq, hl, zero_add, pow_one, h1, own_sg]
  · right; rfl

theorem plen_pos_iff {d : Dart rot} (hd : ¬ Deg2 g d) : 0 < plen h d ↔ (rot (g.E d.1).nbr).length = 2 := by
  have h1 : own g ((ph h ^ (0 + 1)) d) = (g.E d.1).nbr := (nbr_pow h d 0).symm
  constructor
  · intro hp
    have := plen_min h hp
    unfold Deg2 at this
    rwa [h1] at this
  · intro h2
    by_contra hc
    have h0 : plen h d = 0 := by omega
    have := plen_spec h (ends_of h hd)
    rw [h0] at this
    apply this
    unfold Deg2
    rw [h1]
    exact h2

/-- The paths from `u` lead to `v` and use all vertices of degree two. -/
structure Theta (u v : Nat) : Prop where
  ne : u ≠ v
  deg : (rot u).length = 3 ∧ (rot v).length = 3
  path : ∀ d : Dart rot, own g d = u → fin h d = v ∧ 0 < plen h d
  used : ∀ w, 1 ≤ w → w ≤ g.N → (rot w).length = 2 → ∃ d : Dart rot, own g d = u ∧ w ∈ ins h d

end

/-- No arc leads back to its own vertex. -/
def LoopFree (g : Graph) (rot : Nat → List Nat) : Prop := ∀ u e, e ∈ rot u → (g.E e).nbr ≠ u

section
variable {g : Graph} {rot : Nat → List Nat} (h : WInv g rot)
include h

/-- `_TestForK23GraphObstruction`. -/
theorem testK23_spec (hok : DegOk rot 3 5 (List.range' 1 g.N)) (hprim : ∀ u e, e ∈ rot u → 1 ≤ u ∧ u ≤ g.N)
    {F : Nat → Nat → Nat} (hF : ∀ w f, F w f / 2 = f / 2) :
    ∃ F' ok, testK23 (g.relabel F) (degCounts rot 3 (List.range' 1 g.N)) (imageOf rot 5 (List.range' 1 g.N)) =
        some (g.relabel F', ok) ∧ (∀ w f, F' w f / 2 = f / 2) ∧
      (ok = true → LoopFree g rot → ∃ u v, bigVerts rot (List.range' 1 g.N) = [u, v] ∧ Theta h u v) ∧
      ∀ u v, bigVerts rot (List.range' 1 g.N) = [u, v] → Theta h u v → ok = true := by
  have hdg : ∀ v ∈ List.range' 1 g.N, (rot v).length = 0 ∨ (rot v).length = 2 ∨ (rot v).length = 3 := by
    intro v hv
    have := hok.1 v hv
    omega
  have hbig := bigVerts_of (k := 3) (by omega) hdg
  unfold testK23
  rw [degCounts_get (by omega)]
  simp only [Option.bind_eq_bind, Option.bind_some]
  by_cases k1 : (List.range' 1 g.N).countP (fun u => decide ((rot u).length = 3)) ≠ 2
  · rw [if_pos k1]
    refine ⟨F, false, rfl, hF, fun hc => (by cases hc), fun u v hb _ => ?_⟩
    exfalso
    apply k1
    rw [List.countP_eq_length_filter, ← hbig, hb]
    rfl
  rw [if_neg k1]
  have k1 := not_not.1 k1
  rw [List.countP_eq_length_filter, ← hbig] at k1
  obtain ⟨u, v, huv⟩ := List.length_eq_two.1 k1
  have hu := mem_big.1 (by rw [huv]; simp : u ∈ bigVerts rot (List.range' 1 g.N))
  have hv := mem_big.1 (by rw [huv]; simp : v ∈ bigVerts rot (List.range' 1 g.N))
  have hu3 : (rot u).length = 3 := by
    rcases hdg u (List.mem_range'_1.2 ⟨hu.1, by omega⟩) with k | k | k <;> omega
  have hv3 : (rot v).length = 3 := by
    rcases hdg v (List.mem_range'_1.2 ⟨hv.1, by omega⟩) with k | k | k <;> omega
  have hne : u ≠ v := by
    have := bigVerts_nodup (rot := rot) (g := g)
    rw [huv] at this
    simpa using this
  obtain ⟨a1, a2, a3, hr⟩ := List.length_eq_three.1 hu3
  have him : imageOf rot 5 (List.range' 1 g.N) = [u, v, 0, 0, 0] := by
    unfold imageOf
    rw [huv]; rfl
  rw [him]
  simp only [List.getElem?_cons_zero, Option.bind_some]
  obtain ⟨e, vs, ok, p1, p2, p3, p4⟩ := pickLoop_spec (h.relabel F) hr u v 0 0 0
  rw [p1]
  simp only [Option.bind_some]
  rw [p2]
  simp only [Option.bind_some]
  have hE : ∀ a, (g.relabel F).E a = g.E a := fun _ => rfl
  simp only [hE] at p3 p4
  -- darts at the first image vertex
  have hdu : ∀ d : Dart rot, own g d = u → ¬ Deg2 g d := by
    intro d hd hc
    unfold Deg2 at hc
    rw [hd] at hc
    omega
  have mem3 : ∀ d : Dart rot, own g d = u → d.1 = a1 ∨ d.1 = a2 ∨ d.1 = a3 := by
    intro d hd
    have := own_mem h d
    rw [hd, hr] at this
    simpa using this
  cases ok with
  | false =>
    refine ⟨F, false, rfl, hF, fun hc => (by cases hc), fun u' v' hb ht => ?_⟩
    exfalso
    rw [huv] at hb
    cases hb
    have : ∀ a ∈ rot u, (g.E a).nbr ≠ v := by
      intro a ha hc
      obtain ⟨-, q⟩ := ht.path ⟨a, u, ha⟩ (own_of h ha)
      have := (plen_pos_iff h (hdu _ (own_of h ha))).1 q
      rw [hc] at this
      omega
    have := p3.2 ⟨this a1 (by rw [hr]; simp), this a2 (by rw [hr]; simp), this a3 (by rw [hr]; simp)⟩
    cases this
  | true =>
    simp only [Bool.not_true, Bool.false_eq_true, if_false]
    obtain ⟨n1, n2, n3⟩ := p3.1 rfl
    have hvs := p4 rfl
    obtain ⟨F0, e0, hF0, h0⟩ := clearAll_relabel g hF
    rw [e0]
    simp only [Option.bind_some]
    have hnv : ∀ a ∈ rot u, (g.E a).nbr ≠ v := by
      intro a ha
      rw [hr] at ha
      simp only [List.mem_cons, List.not_mem_nil, or_false] at ha
      rcases ha with rfl | rfl | rfl
      · exact n1
      · exact n2
      · exact n3
    have hpos : ∀ p ∈ [2, 3, 4], ∃ a ∈ rot u, vs[p]! = (g.E a).nbr := by
      intro p hp
      simp only [List.mem_cons, List.not_mem_nil, or_false] at hp
      rcases hp with rfl | rfl | rfl
      · exact ⟨a1, by rw [hr]; simp, by rw [hvs]; rfl⟩
      · exact ⟨a2, by rw [hr]; simp, by rw [hvs]; rfl⟩
      · exact ⟨a3, by rw [hr]; simp, by rw [hvs]; rfl⟩
    have hput : ∀ a ∈ rot u, ∃ p ∈ [2, 3, 4], vs[p]! = (g.E a).nbr := by
      intro a ha
      rw [hr] at ha
      simp only [List.mem_cons, List.not_mem_nil, or_false] at ha
      rcases ha with rfl | rfl | rfl
      · exact ⟨2, by simp, by rw [hvs]; rfl⟩
      · exact ⟨3, by simp, by rw [hvs]; rfl⟩
      · exact ⟨4, by simp, by rw [hvs]; rfl⟩
    have hvs1 : vs[1]! = v := by rw [hvs]; rfl
    have hnb : ∀ a (ha : a ∈ rot u), (g.E a).nbr = own g (al h ⟨a, u, ha⟩) := fun a ha =>
      (own_al h ⟨a, u, ha⟩).symm
    have hnbm : ∀ a ∈ rot u, twin a ∈ rot (g.E a).nbr := by
      intro a ha
      have := own_mem h (al h ⟨a, u, ha⟩)
      rw [own_al] at this
      exact this
    have hends : ∀ a (ha : a ∈ rot u), ∀ x : Dart rot, own g x = (g.E a).nbr → Ends h x := by
      intro a ha x hx
      by_cases h2 : (rot (g.E a).nbr).length = 2
      · have hd := hdu ⟨a, u, ha⟩ (own_of h ha)
        rcases mid_darts h hd h2 hx with ⟨-, -, k, -⟩ | rfl
        · exact k
        · exact (step_len h (ends_of h hd) ((plen_pos_iff h hd).2 h2)).2.2.1
      · exact ends_of h (by rw [hx]; exact h2)
    obtain ⟨F1, ok, S, e1, s1, s2, s3, s4⟩ := pathsToSecond_spec h (verts := vs) (by rw [hvs]; simp) [2, 3, 4] hF0
      (fun p hp => by
        rw [hvs]
        simp only [List.mem_cons, List.not_mem_nil, or_false] at hp
        rcases hp with rfl | rfl | rfl <;> simp)
      (fun p hp => by
        obtain ⟨a, ha, e2⟩ := hpos p hp
        rw [e2]
        exact ⟨(h.links.vert _ _ (hnbm a ha)).2, hends a ha⟩)
    rw [e1]
    simp only [Option.bind_some]
    -- what connects a middle vertex and the second vertex
    have hmid : ∀ a (ha : a ∈ rot u), (g.E a).nbr ≠ u → ∀ x : Dart rot, own g x = (g.E a).nbr → fin h x = v →
        x = ph h ⟨a, u, ha⟩ ∧ 0 < plen h ⟨a, u, ha⟩ ∧ fin h ⟨a, u, ha⟩ = v := by
      intro a ha hau x hx hfx
      have hpr := hprim _ _ (hnbm a ha)
      have h2 : (rot (g.E a).nbr).length = 2 := by
        rcases hdg _ (List.mem_range'_1.2 ⟨hpr.1, by omega⟩) with k | k | k
        · have := hnbm a ha
          rw [List.eq_nil_of_length_eq_zero k] at this
          cases this
        · exact k
        · have : (g.E a).nbr ∈ bigVerts rot (List.range' 1 g.N) := mem_big.2 ⟨hpr.1, hpr.2, by omega⟩
          rw [huv] at this
          simp only [List.mem_cons, List.not_mem_nil, or_false] at this
          rcases this with k | k
          · exact absurd k hau
          · exact absurd k (hnv a ha)
      have hd := hdu ⟨a, u, ha⟩ (own_of h ha)
      rcases mid_darts h hd h2 hx with ⟨-, k, -, -⟩ | k
      · rw [k, own_of h ha] at hfx
        exact absurd hfx hne
      · have hp := (plen_pos_iff h hd).2 h2
        refine ⟨k, hp, ?_⟩
        rw [k] at hfx
        rw [← (step_len h (ends_of h hd) hp).2.1, hfx]
    cases ok with
    | false =>
      refine ⟨F1, false, rfl, s2.high, fun hc => (by cases hc), fun u' v' hb ht => ?_⟩
      exfalso
      rw [huv] at hb
      cases hb
      have : false = true := s1.2 fun p hp => by
        obtain ⟨a, ha, e2⟩ := hpos p hp
        obtain ⟨q1, q2⟩ := ht.path ⟨a, u, ha⟩ (own_of h ha)
        have hd := hdu ⟨a, u, ha⟩ (own_of h ha)
        refine ⟨ph h ⟨a, u, ha⟩, ?_, ?_⟩
        · rw [e2, hnb a ha]
          exact own_sg h _
        · rw [hvs1, (step_len h (ends_of h hd) q2).2.1, q1]
      cases this
    | true =>
      simp only [Bool.not_true, Bool.false_eq_true, if_false]
      by_cases hlu : ∀ a ∈ rot u, (g.E a).nbr ≠ u
      · obtain ⟨b, e3, t1⟩ := allUsed_spec h (D := 3) (by omega) h0 s2 (fun w _ _ hw => by
          obtain ⟨p, hp, d, d1, d2, d3⟩ := s3 w hw
          obtain ⟨a, ha, e2⟩ := hpos p hp
          rcases d3 with rfl | d3
          · rw [e2] at d1 ⊢
            rw [hvs1] at d2
            obtain ⟨-, q, -⟩ := hmid a ha (hlu a ha) d d1 d2
            exact (plen_pos_iff h (hdu _ (own_of h ha))).1 q
          · exact ins_deg2 h d3)
        rw [e3]
        have hth : b = true ↔ Theta h u v := by
          rw [t1]
          have hpath : ∀ d : Dart rot, own g d = u → fin h d = v ∧ 0 < plen h d := by
            rintro ⟨a, u', ha'⟩ hd
            have ha : a ∈ rot u := hd ▸ own_mem h ⟨a, u', ha'⟩
            obtain ⟨p, hp, e2⟩ := hput a ha
            obtain ⟨x, x1, x2⟩ := s1.1 rfl p hp
            rw [e2] at x1
            rw [hvs1] at x2
            obtain ⟨-, q1, q2⟩ := hmid a ha (hlu a ha) x x1 x2
            exact ⟨q2, q1⟩
          constructor
          · intro hh
            refine ⟨hne, ⟨hu3, hv3⟩, hpath, ?_⟩
            intro w w1 w2 w3
            obtain ⟨p, hp, d, d1, d2, d3⟩ := s3 w (hh w w1 w2 w3)
            obtain ⟨a, ha, e2⟩ := hpos p hp
            rw [e2] at d1 d3
            rw [hvs1] at d2
            obtain ⟨q1, q2, -⟩ := hmid a ha (hlu a ha) d d1 d2
            refine ⟨⟨a, u, ha⟩, own_of h ha, ?_⟩
            rw [(step_len h (ends_of h (hdu _ (own_of h ha))) q2).2.2.2 w, ← q1, d1]
            exact d3
          · intro ht w w1 w2 w3
            obtain ⟨⟨a, u', ha'⟩, d1, d2⟩ := ht.used w w1 w2 w3
            have ha : a ∈ rot u := d1 ▸ own_mem h ⟨a, u', ha'⟩
            obtain ⟨p, hp, e2⟩ := hput a ha
            obtain ⟨x, x1, x2, x3⟩ := s4 rfl p hp
            rw [e2] at x1 x3
            rw [hvs1] at x2
            obtain ⟨q1, q2, -⟩ := hmid a ha (hlu a ha) x x1 x2
            apply x3
            have := ((step_len h (ends_of h (hdu _ (own_of h ha))) q2).2.2.2 w).1 d2
            rw [← q1, x1] at this
            exact this
        refine ⟨F1, b, rfl, s2.high, fun hb _ => ⟨u, v, huv, hth.1 hb⟩, fun u' v' hb ht => ?_⟩
        rw [huv] at hb
        cases hb
        exact hth.2 ht
      · unfold allUsed
        rw [countVisited_eq, degCounts_get (by omega)]
        refine ⟨F1, _, rfl, s2.high, fun _ hlf => ?_, fun u' v' hb ht => ?_⟩
        · exact absurd (fun a ha => hlf u a ha) hlu
        · exfalso
          rw [huv] at hb
          cases hb
          apply hlu
          intro a ha hc
          have := (plen_pos_iff h (hdu _ (own_of h ha))).1 (ht.path ⟨a, u, ha⟩ (own_of h ha)).2
          rw [hc] at this
          omega

/-- As many darts as the degree are all darts. -/
theorem all_darts {u : Nat} {L : List (Dart rot)} (hn : L.Nodup) (ho : ∀ d ∈ L, own g d = u)
    (hl : (rot u).length ≤ L.length) (d : Dart rot) (hd : own g d = u) : d ∈ L := by
  obtain ⟨K, hK⟩ := exists_dartList (rot := rot) u
  have hm : ∀ x : Dart rot, own g x = u → x ∈ K := by
    intro x hx
    have hm : x.1 ∈ rot u := hx ▸ own_mem h x
    rw [← hK] at hm
    obtain ⟨z, hz, he⟩ := List.mem_map.1 hm
    exact (Subtype.ext he : z = x) ▸ hz
  have hs : L ⊆ K := fun x hx => hm x (ho x hx)
  have hlen : K.length ≤ L.length := by
    have : K.length = (rot u).length := by rw [← hK, List.length_map]
    omega
  exact ((List.subperm_of_subset hn hs).perm_of_length_le hlen).symm.subset (hm d hd)

/-- The three darts at a vertex of degree three. -/
theorem three_darts {u : Nat} (hu : (rot u).length = 3) : ∃ d1 d2 d3 : Dart rot, [d1, d2, d3].Nodup ∧
    (∀ d ∈ [d1, d2, d3], own g d = u) := by
  obtain ⟨K, hK⟩ := exists_dartList (rot := rot) u
  have hl : K.length = 3 := by
    have : K.length = (rot u).length := by rw [← hK, List.length_map]
    omega
  obtain ⟨d1, d2, d3, rfl⟩ := List.length_eq_three.1 hl
  refine ⟨d1, d2, d3, ?_, ?_⟩
  · have := h.links.nodup u
    rw [← hK] at this
    exact List.Nodup.of_map _ this
  · intro d hd
    refine own_eq h ?_
    rw [← hK]
    exact List.mem_map.2 ⟨d, hd, rfl⟩

theorem Theta.not2 {u v : Nat} (ht : Theta h u v) {d : Dart rot} (hd : own g d = u) : ¬ Deg2 g d := by
  intro hc
  unfold Deg2 at hc
  rw [hd] at hc
  have := ht.deg.1
  omega

/-- The darts at the other end. -/
theorem Theta.back {u v : Nat} (ht : Theta h u v) (x : Dart rot) (hx : own g x = v) :
    ∃ d : Dart rot, own g d = u ∧ x = Test.back h d := by
  obtain ⟨d1, d2, d3, hn, ho⟩ := three_darts h ht.deg.1
  have hxm : x ∈ [d1, d2, d3].map (Test.back h) := by
    refine all_darts h (u := v) ?_ ?_ (by rw [ht.deg.2]; simp) x hx
    · refine (List.nodup_map_iff_inj_on hn).2 ?_
      intro a ha b hb he
      rw [← back_back h (ht.not2 h (ho a ha)), he, back_back h (ht.not2 h (ho b hb))]
    · intro d hd
      obtain ⟨y, hy, rfl⟩ := List.mem_map.1 hd
      rw [fin_back]
      exact (ht.path y (ho y hy)).1
  obtain ⟨d, hd, rfl⟩ := List.mem_map.1 hxm
  exact ⟨d, ho d hd, rfl⟩

theorem Theta.symm {u v : Nat} (ht : Theta h u v) : Theta h v u := by
  refine ⟨ht.ne.symm, ⟨ht.deg.2, ht.deg.1⟩, ?_, ?_⟩
  · intro x hx
    obtain ⟨d, hd, rfl⟩ := ht.back h x hx
    have h2 := ht.not2 h hd
    rw [back_fin h h2, plen_back h h2]
    exact ⟨hd, (ht.path d hd).2⟩
  · intro w w1 w2 w3
    obtain ⟨d, d1, d2⟩ := ht.used w w1 w2 w3
    exact ⟨Test.back h d, by rw [fin_back]; exact (ht.path d d1).1, (ins_back h (ht.not2 h d1) w).2 d2⟩

end

theorem around_perm {st st' : List (Nat × Nat)} (hp : st.Perm st') (w : Nat) : (around st w).Perm (around st' w) := by
  unfold around
  exact ((hp.filter _).map _).append ((hp.filter _).map _)

section
variable {g : Graph} {rot : Nat → List Nat} (h : Inv g rot)
include h

/-- Three paths between two vertices are a subdivision of K2,3. -/
theorem theta_sound {u v : Nat} (ht : Theta h.weak u v) (hprim : ∀ u e, e ∈ rot u → 1 ≤ u ∧ u ≤ g.N)
    (hdeg : ∀ w, 1 ≤ w → w ≤ g.N → (rot w).length = 0 ∨ (rot w).length = 2 ∨ w = u ∨ w = v) :
    IsSubdivision g 5 edgesK23 := by
  have hfin := dart_finite h.weak
  have hth := thread h.weak
  obtain ⟨d1, d2, d3, hn, ho⟩ := three_darts h.weak ht.deg.1
  have hall := all_darts h.weak hn ho (by rw [ht.deg.1]; simp)
  have h2 := fun d hd => ht.not2 h.weak (ho d hd)
  have hn1 := cover_nodup hth (ds := [d1, d2, d3]) h2 hn (fun d hd d' hd' he => by
    have e1 := ho d hd
    have e2 := (ht.path d' (ho d' hd')).1
    have : own g d = fin h.weak d' := by rw [he]; rfl
    exact ht.ne (e1.symm.trans (this.trans e2)))
  have hm1 := cover_mem hth (ds := [d1, d2, d3])
    (fun x hx => by
      have hxo := own_mem h.weak x
      obtain ⟨p1, p2⟩ := hprim _ _ hxo
      rcases hdeg (own g x) p1 p2 with k | k | k | k
      · rw [List.eq_nil_of_length_eq_zero k] at hxo
        cases hxo
      · exact absurd k hx
      · exact ⟨x, hall x k, .inl rfl⟩
      · obtain ⟨d, hd, rfl⟩ := ht.back h.weak x k
        exact ⟨d, hall d hd, .inr rfl⟩)
    (fun x hx => by
      obtain ⟨p1, p2⟩ := hprim _ _ (own_mem h.weak x)
      obtain ⟨d, k1, k2⟩ := ht.used (own g x) p1 p2 hx
      obtain ⟨t, ht, k5⟩ := (mem_ins h.weak).1 k2
      exact ⟨d, hall d k1, t, ht, (same_sg h.weak).2 k5.symm⟩)
  have hsplit : ∀ d : Dart rot, own g d = u → ∃ n t, ins h.weak d = n :: t := by
    intro d hd
    have hl : (ins h.weak d).length = plen h.weak d := by unfold ins; simp
    have := (ht.path d hd).2
    cases hi : ins h.weak d with
    | nil => rw [hi] at hl; simp at hl; omega
    | cons n t => exact ⟨n, t, rfl⟩
  obtain ⟨n1, t1, e1⟩ := hsplit d1 (ho d1 (by simp))
  obtain ⟨n2, t2, e2⟩ := hsplit d2 (ho d2 (by simp))
  obtain ⟨n3, t3, e3⟩ := hsplit d3 (ho d3 (by simp))
  have hmem : ∀ w, w ∈ ins h.weak d1 ++ (ins h.weak d2 ++ ins h.weak d3) → ∃ d ∈ [d1, d2, d3], w ∈ ins h.weak d := by
    intro w hw
    rw [List.mem_append, List.mem_append] at hw
    rcases hw with k | k | k
    · exact ⟨d1, by simp, k⟩
    · exact ⟨d2, by simp, k⟩
    · exact ⟨d3, by simp, k⟩
  have hnd : ([u, v] ++ (ins h.weak d1 ++ (ins h.weak d2 ++ ins h.weak d3))).Nodup := by
    have hne : d1 ≠ d2 ∧ d1 ≠ d3 ∧ d2 ≠ d3 := by
      simp only [List.nodup_cons, List.mem_cons, List.not_mem_nil, or_false, not_or] at hn
      exact ⟨hn.1.1, hn.1.2, hn.2.1⟩
    have hins : ∀ d ∈ [d1, d2, d3], (ins h.weak d).Nodup := by
      intro d hd
      unfold ins
      refine (List.nodup_map_iff_inj_on List.nodup_range).2 ?_
      intro i hi j hj he
      rcases ins_meet h.weak (h2 d hd) (h2 d hd) (List.mem_range.1 hi) (List.mem_range.1 hj) he with k | k
      · exact k.2
      · exfalso
        have := congrArg (own g) k
        rw [fin_back, ho d hd, (ht.path d (ho d hd)).1] at this
        exact ht.ne this
    have hdis : ∀ d ∈ [d1, d2, d3], ∀ d' ∈ [d1, d2, d3], d ≠ d' → ∀ a ∈ ins h.weak d, ∀ b ∈ ins h.weak d', a ≠ b := by
      rintro d hd d' hd' hdd a ha b hb rfl
      obtain ⟨i, hi, k1⟩ := (mem_ins h.weak).1 ha
      obtain ⟨j, hj, k2⟩ := (mem_ins h.weak).1 hb
      rcases ins_meet h.weak (h2 d hd) (h2 d' hd') hi hj (k1.trans k2.symm) with k | k
      · exact hdd k.1
      · have := congrArg (own g) k
        rw [fin_back, ho d' hd', (ht.path d (ho d hd)).1] at this
        exact ht.ne this
    rw [List.nodup_append]
    refine ⟨by simpa using ht.ne, ?_, ?_⟩
    · rw [List.nodup_append]
      refine ⟨hins d1 (by simp), ?_, ?_⟩
      · rw [List.nodup_append]
        exact ⟨hins d2 (by simp), hins d3 (by simp), hdis d2 (by simp) d3 (by simp) hne.2.2⟩
      · intro a ha b hb
        rcases List.mem_append.1 hb with k | k
        · exact hdis d1 (by simp) d2 (by simp) hne.1 a ha b k
        · exact hdis d1 (by simp) d3 (by simp) hne.2.1 a ha b k
    · rintro a ha b hb rfl
      obtain ⟨d, hd, k⟩ := hmem a hb
      have k := ins_deg2 h.weak k
      have := ht.deg
      simp only [List.mem_cons, List.not_mem_nil, or_false] at ha
      rcases ha with rfl | rfl <;> omega
  let B : Nat → Nat := fun i => [u, v, n1, n2, n3][i]!
  let path : Nat × Nat → List Nat := fun p => [[], [], t1, t2, t3][p.1]!
  have hlist : (List.range 5).map B ++ edgesK23.flatMap path = [u, v, n1, n2, n3] ++ (t1 ++ (t2 ++ (t3 ++ []))) := rfl
  have hperm : ([u, v, n1, n2, n3] ++ (t1 ++ (t2 ++ (t3 ++ [])))).Perm
      ([u, v] ++ (ins h.weak d1 ++ (ins h.weak d2 ++ ins h.weak d3))) := by
    rw [e1, e2, e3, List.append_nil]
    simp only [List.cons_append, List.nil_append]
    refine List.Perm.cons _ (List.Perm.cons _ (List.Perm.cons _ ?_))
    rw [List.perm_iff_count]
    intro a
    simp only [List.count_cons, List.count_append]
    omega
  refine ⟨B, path, ?_, ?_, ?_⟩
  · rw [hlist]
    exact hperm.nodup_iff.2 hnd
  · rw [hlist]
    intro w hw
    rcases List.mem_append.1 (hperm.subset hw) with k | k
    · have : rot w ≠ [] := by
        intro hc
        have := ht.deg
        simp only [List.mem_cons, List.not_mem_nil, or_false] at k
        rcases k with rfl | rfl <;> rw [hc] at this <;> simp at this
      obtain ⟨e, he⟩ := List.exists_mem_of_ne_nil _ this
      exact hprim w e he
    · obtain ⟨d, hd, k⟩ := hmem w k
      have k := ins_deg2 h.weak k
      obtain ⟨e, he⟩ := List.exists_mem_of_ne_nil (rot w) (fun hc => by rw [hc] at k; cases k)
      exact hprim w e he
  · intro w hw
    obtain ⟨l, l1, l2⟩ := neighbors_of_cover h hn1 hm1 hw
    refine ⟨l, l1, l2.trans ?_⟩
    have hst : steps B path edgesK23 = [(u, n1), (u, n2), (u, n3)] ++ (links (n1 :: t1 ++ [v]) ++ (links (n2 :: t2 ++ [v]) ++
        (links (n3 :: t3 ++ [v]) ++ []))) := rfl
    have hP : ([d1, d2, d3].flatMap (dartsOf (sg h.weak) (al h.weak) (Deg2 g))).map (fun x => (own g x, (g.E x.1).nbr)) =
        ((u, n1) :: links (n1 :: t1 ++ [v])) ++ (((u, n2) :: links (n2 :: t2 ++ [v])) ++
          (((u, n3) :: links (n3 :: t3 ++ [v])) ++ [])) := by
      rw [List.map_flatMap]
      simp only [List.flatMap_cons, List.flatMap_nil]
      rw [← links_chain, ← links_chain, ← links_chain, e1, e2, e3, ho d1 (by simp), ho d2 (by simp), ho d3 (by simp),
        (ht.path d1 (ho d1 (by simp))).1, (ht.path d2 (ho d2 (by simp))).1, (ht.path d3 (ho d3 (by simp))).1]
      rfl
    rw [hst, hP]
    apply around_perm
    rw [List.perm_iff_count]
    intro a
    simp only [List.count_cons, List.count_append, List.count_nil]
    omega

end
end Test
end Verif
