import Verif.IO.Reader
import Verif.IO.Lex

/-
`_ReadAdjList` on a text made of the lists `out`.
-/
namespace Verif.Text
open Verif Verif.Graph Verif.SB Function

/-- The offset of zero-based numbering. -/
def off (z : Bool) : Int := if z then 1 else 0

/-- The neighbours and the end of a line. -/
def bodyText (z : Bool) (R : List Nat) (rest : List Nat) : List Nat :=
  R.flatMap (fun u : Nat => 32 :: decInt ((u : Int) - off z)) ++ (32 :: (decInt (0 - off z) ++ 10 :: rest))

/-- The lines of the vertices from `v` on, `k` of them. -/
def linesText (out : Nat → List Nat) (z : Bool) : Nat → Nat → List Nat
  | 0, _ => []
  | k + 1, v => decInt ((v : Int) - off z) ++ 58 :: bodyText z (out v) (linesText out z k (v + 1))

/-- The whole text. -/
def adjText (out : Nat → List Nat) (z : Bool) (N : Nat) : List Nat :=
  78 :: 61 :: (decInt (N : Int) ++ 10 :: linesText out z N 1)

variable {σ : Type} {src : Src σ} {rep : σ → List Nat → Prop} {out : Nat → List Nat} {z : Bool}

theorem linesText_dropSpace (k v : Nat) : (linesText out z k v).dropWhile isSpace = linesText out z k v := by
  cases k with
  | zero => rfl
  | succ k => unfold linesText; exact decInt_dropSpace _ _

theorem bodyText_append (z : Bool) (R r tail : List Nat) : bodyText z R r ++ tail = bodyText z R (r ++ tail) := by
  simp [bodyText]

theorem linesText_tail (k v : Nat) {tail : List Nat} (ht : tail.dropWhile isSpace = tail) :
    (linesText out z k v ++ tail).dropWhile isSpace = linesText out z k v ++ tail := by
  cases k with
  | zero => exact ht
  | succ k => unfold linesText; rw [List.append_assoc]; exact decInt_dropSpace _ _

theorem off_range (z : Bool) : off z = 0 ∨ off z = 1 := by cases z <;> simp [off]

/-- Reading the first number of a body, with or without the space in front of it. -/
theorem number_body (hf : Faithful src rep) {t : σ} {x : Int} {r : List Nat} (hx : -2147483648 ≤ x ∧ x < 2147483648)
    (hr : isDigit (r.headD 0) = false)
    (h : rep t (32 :: (decInt x ++ r)) ∨ rep t ((32 :: (decInt x ++ r)).dropWhile isSpace)) :
    ∃ t', src.number t = some (t', some x) ∧ rep t' (r.dropWhile isSpace) := by
  rcases h with h | h
  · exact hf.number t [32] x r (by simp [isSpace]) hx hr h
  · refine hf.number t [] x r (by simp) hx hr ?_
    have : (32 :: (decInt x ++ r)).dropWhile isSpace = decInt x ++ r := by
      have := dropWhile_spaces (p := [32]) (r := decInt x ++ r) (by simp [isSpace])
      rw [List.singleton_append] at this
      rw [this, decInt_dropSpace]
    rwa [this] at h

theorem body_head (z : Bool) (R rest : List Nat) : (bodyText z R rest).headD 0 = 32 := by
  cases R <;> rfl

theorem ckInt_eq {x : Int} (h : -2147483648 ≤ x ∧ x < 2147483648) : ckInt x = some x := if_pos h

/-- The loop over the neighbours. -/
theorem readNeighbors_spec (hf : Faithful src rep) {v N : Nat} (hp : Proper out N) (hv : 1 ≤ v ∧ v ≤ N) (hN : N < 2147483648)
    (rest : List Nat) :
    ∀ (R : List Nat) (fuel : Nat) (t : σ) (s : PGraph) (rot : Nat → List Nat) (C Q : List Nat) (W : Option Int),
      Mid out s rot v C Q → Q ++ R = out v → s.g.N = N → R.length < fuel →
      (rep t (bodyText z R rest) ∨ rep t ((bodyText z R rest).dropWhile isSpace)) →
      ∃ t' s' rot' C', readNeighbors src z v fuel t s (C.headD 0) W = some (t', s', C'.headD 0, some 0, .ok) ∧
        Mid out s' rot' v C' (out v) ∧ rep t' (rest.dropWhile isSpace) ∧ s'.g.N = N ∧ s'.g.flags = s.g.flags := by
  have ho := off_range z
  intro R
  induction R with
  | nil =>
    intro fuel t s rot C Q W h hQ hsN hfu hrep
    cases fuel with
    | zero => simp at hfu
    | succ fuel =>
      obtain ⟨t', h1, h2⟩ := number_body hf (x := 0 - off z) (r := 10 :: rest) (by omega) rfl hrep
      have hst : store (some (0 - off z)) W z = some 0 := by
        show ckInt (0 - off z + off z) = some 0
        rw [show (0 : Int) - off z + off z = 0 by omega]
        rfl
      refine ⟨t', s, rot, C, ?_, by simpa [← hQ] using h, ?_, hsN, rfl⟩
      · unfold readNeighbors
        rw [h1]
        simp only [Option.bind_eq_bind, Option.bind_some]
        rw [hst]
        rfl
      · simpa [isSpace] using h2
  | cons u R ih =>
    intro fuel t s rot C Q W h hQ hsN hfu hrep
    cases fuel with
    | zero => simp at hfu
    | succ fuel =>
      have hu : u ∈ out v := by rw [← hQ]; simp
      have hur := hp.range v hv.1 hv.2 u hu
      have hq : u ∉ Q := by
        have := hp.nodup v hv.1 hv.2
        rw [← hQ, List.nodup_append] at this
        intro hc
        exact this.2.2 u hc u (by simp) rfl
      have hbody : bodyText z (u :: R) rest = 32 :: (decInt ((u : Int) - off z) ++ bodyText z R rest) := by
        simp [bodyText]
      rw [hbody] at hrep
      obtain ⟨t', h1, h2⟩ := number_body hf (x := (u : Int) - off z) (r := bodyText z R rest) (by omega) (by rw [body_head]; rfl) hrep
      have hst : store (some ((u : Int) - off z)) W z = some (u : Int) := by
        show ckInt ((u : Int) - off z + off z) = some (u : Int)
        rw [show (u : Int) - off z + off z = u by omega]
        exact ckInt_eq (by omega)
      obtain ⟨s', rot', C', k1, k2, k3, k4⟩ := h.step (hsN ▸ hp) (hsN ▸ hv) hu hq
      obtain ⟨t2, s2, rot2, C2, i1, i2, i3, i4, i5⟩ := ih fuel t' s' rot' C' (Q ++ [u]) (some (u : Int)) k2 (by simpa using hQ)
        (k3.trans hsN) (by simpa using hfu) (.inr h2)
      refine ⟨t2, s2, rot2, C2, ?_, i2, i3, i4, i5.trans k4⟩
      unfold readNeighbors
      rw [h1]
      simp only [Option.bind_eq_bind, Option.bind_some]
      rw [hst]
      simp only [Option.bind_some]
      rw [if_neg (by omega), k1]
      simpa using i1

/-- One vertex. -/
theorem readVertex_spec (hf : Faithful src rep) {v N : Nat} (hp : Proper out N) (hv : 1 ≤ v ∧ v ≤ N) (hN : N < 2147483648)
    {rest : List Nat} {fuel : Nat} {t : σ} {s : PGraph} {rot : Nat → List Nat} {W : Option Int} (h : Bet out s rot v)
    (hsN : s.g.N = N) (hfu : (out v).length < fuel) (hrep : rep t (58 :: bodyText z (out v) rest)) :
    ∃ t' s' rot', readVertex src fuel z v t s W = some (t', s', some 0, .ok) ∧ Bet out s' rot' (v + 1) ∧
      rep t' (rest.dropWhile isSpace) ∧ s'.g.N = N ∧ s'.g.flags = s.g.flags := by
  obtain ⟨t1, h1, r1⟩ := hf.skip t 58 _ (by decide) hrep
  obtain ⟨s1, rot1, h2, m1, n1, f1, -⟩ := h.save (hsN ▸ hv)
  obtain ⟨t2, s2, rot2, C2, h3, m2, r2, n2, f2⟩ := readNeighbors_spec hf hp hv hN rest (out v) fuel t1 s1 rot1 (rot v) [] W m1 rfl
    (n1.trans hsN) hfu (.inl r1)
  have hlen : C2.length ≤ s2.g.eSize := nodup_length_le m2.saved.nodup fun e he => m2.saved.lt (w := v) (.inr ⟨rfl, he⟩)
  obtain ⟨s3, rot3, R, h4, m3, hR, n3, f3⟩ := Mid.rest hv.1 C2.length m2 rfl (fun _ hu => hu) s2.g.eSize hlen
  refine ⟨t2, s3, rot3, ?_, m3.finish ((n3.trans n2).symm ▸ hp) ((n3.trans n2).symm ▸ hv) hR, r2, n3.trans n2, f3.trans (f2.trans f1)⟩
  unfold readVertex
  rw [h1]
  simp only [Option.bind_eq_bind, Option.bind_some]
  rw [h2]
  simp only [Option.bind_some]
  rw [h3]
  simp only [Option.bind_some, ne_eq, not_true_eq_false, if_false]
  rw [h4]
  rfl

/-- Writing the index of a vertex. -/
theorem Bet.index {s : PGraph} {rot : Nat → List Nat} {v : Nat} (h : Bet out s rot v) (hv : v < s.g.vSize) (i : Nat) :
    ∃ g', (do let r ← s.g.rdV v; s.g.wrV v { r with index := i }) = some g' ∧ Bet out (s.setG g') rot v ∧ g'.N = s.g.N ∧
      g'.flags = s.g.flags := by
  refine ⟨{ s.g with V := update s.g.V v { (s.g.V v) with index := i } }, ?_, ?_, rfl, rfl⟩
  · simp [rdV, wrV, hv]
  · refine ⟨?_, h.info, h.old, h.adj, h.flag⟩
    refine h.saved.congr rfl rfl rfl rfl rfl ?_ (fun _ _ => rfl) (fun _ => rfl) (fun _ _ => rfl)
    intro w b
    show ((update s.g.V v _) w).link b = _
    by_cases hw : w = v
    · subst hw; rw [update_self]; cases b <;> rfl
    · rw [update_of_ne hw]

/-- All vertices; `tail` is the text after them. -/
theorem readVertices_spec {tail : List Nat} (ht : tail.dropWhile isSpace = tail) (hf : Faithful src rep) {N : Nat} (hp : Proper out N) (hN : N < 2147483648) {fuel : Nat} (hfu : N ≤ fuel) :
    ∀ (k v : Nat) (z0 : Bool) (t : σ) (s : PGraph) (rot : Nat → List Nat) (ix W : Option Int), Bet out s rot v → s.g.N = N →
      1 ≤ v → v + k = N + 1 → (z0 = z ∨ (v = 1 ∧ z0 = false ∧ k ≠ 0)) → rep t (linesText out z k v ++ tail) →
      ∃ t' s' rot', readVertices src fuel k v z0 t s ix W = some (t', s', z, .ok) ∧ Bet out s' rot' (N + 1) ∧ rep t' tail ∧
        s'.g.N = N ∧ s'.g.flags = s.g.flags := by
  have ho := off_range z
  intro k
  induction k with
  | zero =>
    intro v z0 t s rot ix W h hsN hv1 hvk hz hrep
    have hz' : z0 = z := by
      rcases hz with hz | hz
      · exact hz
      · exact absurd rfl hz.2.2
    have : v = N + 1 := by omega
    subst this
    exact ⟨t, s, rot, by rw [hz']; rfl, h, hrep, hsN, rfl⟩
  | succ k ih =>
    intro v z0 t s rot ix W h hsN hv1 hvk hz hrep
    have hv : 1 ≤ v ∧ v ≤ N := ⟨hv1, by omega⟩
    unfold linesText at hrep
    rw [List.append_assoc, List.cons_append, bodyText_append] at hrep
    obtain ⟨t1, h1, r1⟩ := hf.index t _ _ (by omega) rfl hrep
    have hzz : (z0 || (decide ((v : Int) - off z = 0) && decide (v = 1))) = z := by
      rcases hz with hz | ⟨hv1, hz0, -⟩
      · subst hz
        cases z0
        · by_cases h1 : v = 1
          · subst h1; simp [off]
          · simp [h1]
        · rfl
      · subst hv1 hz0
        cases z <;> simp [off]
    obtain ⟨g', h2, b2, n2, f2⟩ := h.index (i := v) (by unfold vSize; omega)
    have hlen : (out v).length < fuel := by
      have hnd : (v :: out v).Nodup := List.nodup_cons.2 ⟨fun hc => (hp.range v hv.1 hv.2 v hc).2.2 rfl, hp.nodup v hv.1 hv.2⟩
      have h3 : ((v :: out v).map (· - 1)).Nodup := by
        refine List.Nodup.map_on ?_ hnd
        intro a ha b hb hab
        have hpos : ∀ c ∈ v :: out v, 1 ≤ c := by
          intro c hc
          rcases List.mem_cons.1 hc with rfl | hc
          · exact hv.1
          · exact (hp.range v hv.1 hv.2 c hc).1
        have h1 := hpos a ha
        have h2 := hpos b hb
        omega
      have h4 := nodup_length_le h3 (n := N) (by
        intro x hx
        obtain ⟨c, hc, rfl⟩ := List.mem_map.1 hx
        rcases List.mem_cons.1 hc with rfl | hc
        · omega
        · have := hp.range v hv.1 hv.2 c hc; omega)
      simp at h4
      omega
    obtain ⟨t3, s3, rot3, h3, b3, r3, n3, f3⟩ := readVertex_spec (W := W) hf hp hv hN b2 (n2.trans hsN) hlen r1
    rw [linesText_tail _ _ ht] at r3
    obtain ⟨t4, s4, rot4, h4, b4, r4, n4, f4⟩ := ih (v + 1) z t3 s3 rot3 (some (v : Int)) (some 0) b3 n3 (by omega) (by omega) (.inl rfl) r3
    refine ⟨t4, s4, rot4, ?_, b4, r4, n4, f4.trans (f3.trans f2)⟩
    unfold readVertices
    rw [h1]
    have hor : (some ((v : Int) - off z) <|> ix) = some ((v : Int) - off z) := rfl
    simp only [Option.bind_eq_bind, Option.bind_some, hor]
    rw [hzz, show ((v : Int) - off z + if z = true then 1 else 0) = (v : Int) from by
      show (v : Int) - off z + off z = v
      omega, ckInt_eq (by omega)]
    simp only [Option.bind_some, ne_eq, not_true_eq_false, if_false]
    simp only [Option.bind_eq_bind] at h2
    revert h2
    cases s.g.rdV v with
    | none => simp
    | some r =>
      simp only [Option.bind_some]
      intro h2
      rw [h2]
      simp only [Option.bind_some]
      rw [h3]
      simpa using h4

theorem bet_init (N : Nat) (hN : 1 ≤ N) : Bet out { g := Graph.init N (6 * N) } (fun _ => []) 1 := by
  have hI := Inv.init N (6 * N) (by omega)
  have hno : ∀ w e, ¬ Has (fun _ => []) 1 [] w e := fun w e hc => by rw [has_nil] at hc; simp at hc
  refine ⟨?_, fun _ _ => rfl, fun w h1 h2 => by omega, ?_, fun w e he => by simp at he⟩
  · constructor
    · exact hI.links
    · rfl
    · exact hI.even
    · show 6 ≤ 6 * N; omega
    · show 0 ≤ _; omega
    · exact hI.holesCap
    · exact List.nodup_nil
    · simp
    · exact fun w e he => absurd he (hno w e)
    · exact fun w e he => absurd he (hno w e)
    · exact fun w e he => absurd he (hno w e)
    · intro e h1 h2
      change e < 2 + 2 * 0 at h2
      omega
    · exact fun w e he => absurd he (hno w e)
    · exact fun e _ => rfl
    · simp
    · exact fun w e e' he => absurd he (hno w e)
    · exact fun w e he => absurd he (hno w e)
  · intro w u
    simp [Joined]
    omega

/-- `_ReadAdjList` on the text of the lists `out`, with something after it. -/
theorem readAdjList_tail {tail : List Nat} (ht : tail.dropWhile isSpace = tail) (hf : Faithful src rep) {N : Nat} (hN1 : 1 ≤ N) (hp : Proper out N) (hN : N < 2147483648) {fuel : Nat}
    (hfu : N ≤ fuel) {t : σ} (hrep : rep t (adjText out z N ++ tail)) :
    ∃ t' s' rot', readAdjList src fuel t = some (t', some s', .ok) ∧ Bet out s' rot' (N + 1) ∧ rep t' tail ∧
      s'.g.N = N ∧ s'.g.flags = off z * 8 := by
  unfold adjText at hrep
  rw [List.cons_append, List.cons_append, List.append_assoc, List.cons_append] at hrep
  obtain ⟨t1, h1, r1⟩ := hf.skip t 78 _ (by decide) hrep
  obtain ⟨t2, h2, r2⟩ := hf.skip t1 61 _ (by decide) r1
  obtain ⟨t3, h3, r3⟩ := hf.number t2 [] (N : Int) (10 :: (linesText out z N 1 ++ tail)) (by simp) (by omega) rfl r2
  have r3' : rep t3 (linesText out z N 1 ++ tail) := by
    have : (10 :: (linesText out z N 1 ++ tail)).dropWhile isSpace = linesText out z N 1 ++ tail := by
      rw [List.dropWhile_cons, if_pos (by rfl), linesText_tail _ _ ht]
    rwa [this] at r3
  have hord : readOrder src t2 = some (t3, (N : Int)) := by
    unfold readOrder
    rw [h3]
    rfl
  have hng : newGraph (N : Int) = some { g := Graph.init N (6 * N) } := by
    unfold newGraph
    rw [if_neg (by omega)]
    rfl
  obtain ⟨t4, s4, rot4, h4, b4, r4, n4, f4⟩ := readVertices_spec (z := z) ht hf hp hN hfu N 1 false t3 _ _ none none (bet_init N hN1) rfl
    (by omega) (by omega) (.inr ⟨rfl, rfl, by omega⟩) r3'
  refine ⟨t4, markZero z s4, rot4, ?_, ?_, r4, ?_, ?_⟩
  · unfold readAdjList
    rw [h1]
    simp only [Option.bind_eq_bind, Option.bind_some]
    rw [h2]
    simp only [Option.bind_some]
    rw [hord]
    simp only [Option.bind_some]
    rw [hng]
    simp only
    change (readVertices src fuel N 1 false t3 _ none none).bind _ = _
    rw [h4]
    simp
  · cases z
    · exact b4
    · refine ⟨?_, b4.info, b4.old, b4.adj, b4.flag⟩
      exact b4.saved.congr rfl rfl rfl rfl rfl (fun _ _ => rfl) (fun _ _ => rfl) (fun _ => rfl) (fun _ _ => rfl)
  · cases z <;> exact n4
  · have f4' : s4.g.flags = 0 := f4
    cases z
    · show ((s4.g.flags : Nat) : Int) = 0 * 8
      rw [f4']; rfl
    · show ((s4.g.flags ||| 8 : Nat) : Int) = 1 * 8
      rw [f4']; rfl

/-- `_ReadAdjList` on the text of the lists `out`. -/
theorem readAdjList_spec (hf : Faithful src rep) {N : Nat} (hN1 : 1 ≤ N) (hp : Proper out N) (hN : N < 2147483648) {fuel : Nat}
    (hfu : N ≤ fuel) {t : σ} (hrep : rep t (adjText out z N)) :
    ∃ t' s' rot', readAdjList src fuel t = some (t', some s', .ok) ∧ Bet out s' rot' (N + 1) ∧ rep t' [] ∧
      s'.g.N = N ∧ s'.g.flags = off z * 8 :=
  readAdjList_tail (tail := []) rfl hf hN1 hp hN hfu (by rwa [List.append_nil])

end Verif.Text
