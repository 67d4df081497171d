import Verif.Map.Path
import Verif.Test.External

/-
What `_TryPath`, `_MarkPath` and `_TestPath` compute.
-/
namespace Verif
namespace Test
open Graph Map Equiv Equiv.Perm Props DFS

/-- The darts at vertices of degree two. -/
def Deg2 (g : Graph) {rot : Nat → List Nat} (d : Dart rot) : Prop := (rot (own g d)).length = 2

/-- `F'` marks the vertices in `S` in addition. -/
structure Adds (F F' : Nat → Nat → Nat) (S : Nat → Prop) : Prop where
  high : ∀ w f, F' w f / 2 = f / 2
  low : ∀ w f, F' w f % 2 = 1 ↔ F w f % 2 = 1 ∨ S w

theorem Adds.trans {F F' F'' : Nat → Nat → Nat} {S S' : Nat → Prop} (h : Adds F F' S) (h' : Adds F' F'' S') :
    Adds F F'' fun w => S w ∨ S' w :=
  ⟨h'.high, fun w f => by rw [h'.low, h.low, or_assoc]⟩

theorem Adds.congr {F F' : Nat → Nat → Nat} {S S' : Nat → Prop} (h : Adds F F' S) (he : ∀ w, S w ↔ S' w) : Adds F F' S' :=
  ⟨h.high, fun w f => by rw [h.low, he]⟩

theorem Adds.refl {F : Nat → Nat → Nat} (h : ∀ w f, F w f / 2 = f / 2) : Adds F F fun _ => False :=
  ⟨h, fun w f => by simp⟩

theorem Adds.one {F : Nat → Nat → Nat} (h : ∀ w f, F w f / 2 = f / 2) (v : Nat) :
    Adds F (fun w f => if w = v then F w f / 2 * 2 + 1 else F w f) fun w => w = v := by
  constructor
  · intro w f
    have := h w f
    split <;> omega
  · intro w f
    by_cases hw : w = v
    · rw [if_pos hw]; exact ⟨fun _ => .inr hw, fun _ => by omega⟩
    · rw [if_neg hw]; exact ⟨.inl, fun hh => hh.resolve_right hw⟩

section
variable {g : Graph} {rot : Nat → List Nat} (h : WInv g rot)
include h

theorem sg_two {u a b : Nat} (hr : rot u = [a, b]) :
    sg h ⟨a, u, by rw [hr]; simp⟩ = ⟨b, u, by rw [hr]; simp⟩ ∧ sg h ⟨b, u, by rw [hr]; simp⟩ = ⟨a, u, by rw [hr]; simp⟩ := by
  have h0 : 0 < (rot u).length := by rw [hr]; simp
  have h1 : 1 < (rot u).length := by rw [hr]; simp
  have k0 := sg_get h h0
  have k1 := sg_get h h1
  simp only [hr, List.getElem_cons_zero, List.getElem_cons_succ, List.length_cons, List.length_nil] at k0 k1
  exact ⟨Subtype.ext k0, Subtype.ext k1⟩

theorem thread : Thread (sg h) (al h) (Deg2 g) := by
  refine ⟨al_al h, al_ne h, ?_, ?_, fun x => by unfold Deg2; rw [own_sg]⟩
  · intro x hx
    obtain ⟨a, b, hr⟩ := List.length_eq_two.1 hx
    have hm := own_mem h x
    obtain ⟨k0, k1⟩ := sg_two h hr
    rw [hr] at hm
    rcases List.mem_cons.1 hm with he | he
    · have : x = ⟨a, _, by rw [hr]; simp⟩ := Subtype.ext he
      rw [this, k0, k1]
    · have : x = ⟨b, _, by rw [hr]; simp⟩ := Subtype.ext (List.mem_singleton.1 he)
      rw [this, k1, k0]
  · intro x hx
    obtain ⟨a, b, hr⟩ := List.length_eq_two.1 hx
    have hm := own_mem h x
    obtain ⟨k0, k1⟩ := sg_two h hr
    have hn := h.links.nodup (own g x)
    rw [hr] at hn hm
    have hab : a ≠ b := by simpa using hn
    rcases List.mem_cons.1 hm with he | he
    · have : x = ⟨a, _, by rw [hr]; simp⟩ := Subtype.ext he
      intro hc
      rw [this, k0] at hc
      exact hab (congrArg Subtype.val hc).symm
    · have : x = ⟨b, _, by rw [hr]; simp⟩ := Subtype.ext (List.mem_singleton.1 he)
      intro hc
      rw [this, k1] at hc
      exact hab (congrArg Subtype.val hc)

theorem isDegreeTwo_eq {v : Nat} (hv : v < g.vSize) : isDegreeTwo g v = some (decide ((rot v).length = 2)) := by
  unfold isDegreeTwo
  rw [first_eq h hv]
  simp only [Option.bind_eq_bind, Option.bind_some]
  rcases hr : rot v with _ | ⟨a, K⟩
  · simp
  have ha : a ∈ rot v := by rw [hr]; simp
  have ha0 : a ≠ 0 := by have := (h.links.arc v a ha).1; omega
  simp only [List.headD_cons, ha0, if_false]
  rw [last_eq h hv, hr]
  simp only [Option.bind_some]
  have hn := next_eq h.links (show rot v = [] ++ a :: K from hr)
  rw [hn]
  simp only [Option.bind_some]
  have hz := h.links.zero_not_mem v
  rw [hr] at hz
  have hnd := h.links.nodup v
  rw [hr] at hnd
  have hlast : ((a :: K).reverse.headD 0) ∈ a :: K := by
    rw [List.headD_eq_head?_getD, List.head?_reverse, List.getLast?_eq_getLast_of_ne_nil (by simp)]
    exact List.getLast_mem _
  have hl0 : (a :: K).reverse.headD 0 ≠ 0 := fun hc => hz (hc ▸ hlast)
  rw [if_neg hl0]
  congr 1
  rw [decide_eq_decide]
  rcases K with _ | ⟨b, K⟩
  · simp only [List.headD_nil, List.length_cons, List.length_nil]
    exact ⟨fun hc => absurd hc.symm hl0, fun hc => by omega⟩
  · simp only [List.headD_cons, List.length_cons]
    rcases K with _ | ⟨c, K⟩
    · simp
    · constructor
      · intro hc
        exfalso
        have : (a :: b :: c :: K).reverse.headD 0 ∈ c :: K := by
          rw [List.headD_eq_head?_getD, List.head?_reverse, List.getLast?_eq_getLast_of_ne_nil (by simp)]
          simp only [Option.getD_some, List.getLast_cons_cons]
          exact List.getLast_mem _
        rw [← hc] at this
        have h2 := (List.nodup_cons.1 (List.nodup_cons.1 hnd).2).1
        exact h2 this
      · intro hc
        simp at hc

theorem otherArc_eq {d : Dart rot} (hd : Deg2 g (al h d)) : otherArc g (g.E d.1).nbr d.1 = some (ph h d).1 := by
  have ho : own g (al h d) = (g.E d.1).nbr := own_al h d
  have hm := own_mem h (al h d)
  have hv := (h.links.vert _ _ hm).2
  obtain ⟨a, b, hr⟩ := List.length_eq_two.1 hd
  obtain ⟨k0, k1⟩ := sg_two h hr
  have hn := h.links.nodup (own g (al h d))
  rw [hr] at hn
  have hab : a ≠ b := by simpa using hn
  rw [← ho]
  unfold otherArc
  rw [first_eq h hv, hr]
  simp only [Option.bind_eq_bind, Option.bind_some, List.headD_cons]
  rw [hr] at hm
  show _ = some (sg h (al h d)).1
  rcases List.mem_cons.1 hm with he | he
  · have hx : al h d = ⟨a, _, by rw [hr]; simp⟩ := Subtype.ext he
    rw [if_pos (show a = twin d.1 from he.symm), last_eq h hv, hr]
    conv_rhs => rw [hx, k0]
    rfl
  · have he := List.mem_singleton.1 he
    have hx : al h d = ⟨b, _, by rw [hr]; simp⟩ := Subtype.ext he
    rw [if_neg (show a ≠ twin d.1 from fun hc => hab (hc.trans he))]
    conv_rhs => rw [hx, k1]
    rfl

/-- Number of inner vertices of the path of `d`. -/
noncomputable def plen (d : Dart rot) : Nat := len (sg h) (al h) (Deg2 g) d
/-- The path of `d` ends. -/
def Ends (d : Dart rot) : Prop := Stops (sg h) (al h) (Deg2 g) d
/-- The last vertex of the path. -/
noncomputable def fin (d : Dart rot) : Nat := own g (rev (sg h) (al h) (Deg2 g) d)
/-- The inner vertices of the path. -/
noncomputable def ins (d : Dart rot) : List Nat := (List.range (plen h d)).map fun i => own g ((ph h ^ (i + 1)) d)

theorem ends_of {d : Dart rot} (hd : (rot (own g d)).length ≠ 2) : Ends h d := by
  have := dart_finite h
  exact stops_of_not hd

theorem nbr_pow (d : Dart rot) (j : Nat) : (g.E ((ph h ^ j) d).1).nbr = own g ((ph h ^ (j + 1)) d) := by
  rw [pow_succ', mul_apply]
  show _ = own g (sg h (al h _))
  rw [own_sg, own_al]

theorem fin_eq (d : Dart rot) : fin h d = own g ((ph h ^ (plen h d + 1)) d) := by
  rw [← nbr_pow]
  exact own_al h _

theorem deg2_pow (d : Dart rot) (j : Nat) : Deg2 g (al h ((ph h ^ j) d)) ↔ Deg2 g ((ph h ^ (j + 1)) d) := by
  rw [← (thread h).same, pow_succ', mul_apply]
  rfl

theorem plen_spec {d : Dart rot} (hs : Ends h d) : ¬ Deg2 g ((ph h ^ (plen h d + 1)) d) := len_spec hs
theorem plen_min {d : Dart rot} {i : Nat} (hi : i < plen h d) : Deg2 g ((ph h ^ (i + 1)) d) := len_min hi

theorem plen_lt {d : Dart rot} (hs : Ends h d) : plen h d < g.eSize := by
  refine pow_bound h (ph h) d _ ?_
  intro i h1 h2 hc
  apply plen_spec h hs
  have : (ph h ^ (plen h d + 1)) d = (ph h ^ (plen h d - i + 1)) d := by
    rw [show plen h d + 1 = (plen h d - i + 1) + i by omega, pow_add, mul_apply, hc]
  rw [this]
  exact plen_min h (by omega)

theorem deg2_iff (d : Dart rot) (j : Nat) :
    isDegreeTwo g (g.E ((ph h ^ j) d).1).nbr = some (decide ((rot (own g ((ph h ^ (j + 1)) d))).length = 2)) := by
  rw [nbr_pow h]
  have hm := own_mem h ((ph h ^ (j + 1)) d)
  exact isDegreeTwo_eq h (h.links.vert _ _ hm).2

theorem tryPath_eq {d : Dart rot} (hs : Ends h d) (V : Nat) : ∀ fuel j, plen h d < fuel + j → j ≤ plen h d →
    tryPath g V fuel ((ph h ^ j) d).1 = some (decide (fin h d = V)) := by
  intro fuel
  induction fuel with
  | zero => intro j h1 h2; omega
  | succ fuel ih =>
    intro j h1 h2
    unfold tryPath
    rw [getNbr_eq (dart_lt h _)]
    simp only [Option.bind_eq_bind, Option.bind_some]
    rw [deg2_iff]
    simp only [Option.bind_some]
    rcases Nat.eq_or_lt_of_le h2 with h3 | h3
    · subst h3
      have h4 : ¬ (rot (own g ((ph h ^ (plen h d + 1)) d))).length = 2 := plen_spec h hs
      rw [decide_eq_false h4]
      simp only [Bool.false_eq_true, if_false]
      rw [nbr_pow h, ← fin_eq h]
      rfl
    · have h4 : (rot (own g ((ph h ^ (j + 1)) d))).length = 2 := plen_min h h3
      rw [decide_eq_true h4]
      simp only [if_true]
      rw [otherArc_eq h ((deg2_pow h d j).2 h4)]
      simp only [Option.bind_some]
      have : ph h ((ph h ^ j) d) = (ph h ^ (j + 1)) d := by rw [pow_succ', mul_apply]
      rw [this]
      exact ih (j + 1) (by omega) h3

end

section
variable {g : Graph} {rot : Nat → List Nat} (h : WInv g rot)
include h

theorem markPath_spec {d : Dart rot} (hs : Ends h d) : ∀ fuel j (F : Nat → Nat → Nat), (∀ w f, F w f / 2 = f / 2) →
    plen h d < fuel + j → j ≤ plen h d →
    ∃ F', markPath fuel ((ph h ^ j) d).1 (g.relabel F) = some (g.relabel F') ∧
      Adds F F' fun w => ∃ i, j ≤ i ∧ i < plen h d ∧ own g ((ph h ^ (i + 1)) d) = w := by
  intro fuel
  induction fuel with
  | zero => intro j F _ h1 h2; omega
  | succ fuel ih =>
    intro j F hF h1 h2
    unfold markPath
    rw [getNbr_relabel, getNbr_eq (dart_lt h _)]
    simp only [Option.bind_eq_bind, Option.bind_some]
    have hd := deg2_iff (WInv.relabel h F) d j
    have hd' : isDegreeTwo (g.relabel F) (g.E ((ph h ^ j) d).1).nbr =
        some (decide ((rot (own g ((ph h ^ (j + 1)) d))).length = 2)) := hd
    rw [hd']
    simp only [Option.bind_some]
    rcases Nat.eq_or_lt_of_le h2 with h3 | h3
    · subst h3
      have h4 : ¬ (rot (own g ((ph h ^ (plen h d + 1)) d))).length = 2 := plen_spec h hs
      rw [decide_eq_false h4]
      simp only [Bool.false_eq_true, if_false]
      refine ⟨F, rfl, (Adds.refl hF).congr fun w => ⟨False.elim, ?_⟩⟩
      rintro ⟨i, k1, k2, _⟩
      omega
    · have h4 : (rot (own g ((ph h ^ (j + 1)) d))).length = 2 := plen_min h h3
      rw [decide_eq_true h4]
      simp only [if_true]
      have hm := own_mem h ((ph h ^ (j + 1)) d)
      have hv := (h.links.vert _ _ hm).2
      have hnb := nbr_pow h d j
      rw [hnb, setVisited_eq (show own g ((ph h ^ (j + 1)) d) < (g.relabel F).vSize from hv)]
      simp only [Option.bind_some]
      rw [relabel_relabel, ← hnb]
      have ho := otherArc_eq (WInv.relabel h (fun w f => if w = (g.E ((ph h ^ j) d).1).nbr then F w f / 2 * 2 + 1 else F w f))
        (d := (ph h ^ j) d) ((deg2_pow h d j).2 h4)
      have ho' : otherArc (g.relabel (fun w f => if w = (g.E ((ph h ^ j) d).1).nbr then F w f / 2 * 2 + 1 else F w f))
        (g.E ((ph h ^ j) d).1).nbr ((ph h ^ j) d).1 = some (ph h ((ph h ^ j) d)).1 := ho
      rw [ho']
      simp only [Option.bind_some]
      have : ph h ((ph h ^ j) d) = (ph h ^ (j + 1)) d := by rw [pow_succ', mul_apply]
      rw [this]
      have hone := Adds.one hF (g.E ((ph h ^ j) d).1).nbr
      obtain ⟨F', e, ha⟩ := ih (j + 1) _ hone.high (by omega) h3
      refine ⟨F', e, (hone.trans ha).congr fun w => ?_⟩
      rw [hnb]
      constructor
      · rintro (rfl | ⟨i, k1, k2, k3⟩)
        · exact ⟨j, le_rfl, h3, rfl⟩
        · exact ⟨i, by omega, k2, k3⟩
      · rintro ⟨i, k1, k2, rfl⟩
        rcases Nat.eq_or_lt_of_le k1 with k4 | k4
        · subst k4; exact .inl rfl
        · exact .inr ⟨i, k4, k2, rfl⟩

theorem mem_ins {d : Dart rot} {w : Nat} : w ∈ ins h d ↔ ∃ i, i < plen h d ∧ own g ((ph h ^ (i + 1)) d) = w := by
  unfold ins
  simp only [List.mem_map, List.mem_range]

theorem testPathLoop_spec (V : Nat) {U : Nat} (hU : ∀ d : Dart rot, own g d = U → Ends h d) {F : Nat → Nat → Nat}
    (hF : ∀ w f, F w f / 2 = f / 2) : ∀ fuel (A B : List Nat), rot U = A ++ B → B.length ≤ fuel →
    ∃ F' ok, testPathLoop V fuel (B.headD 0) (g.relabel F) = some (g.relabel F', ok) ∧
      (ok = true → ∃ d : Dart rot, d.1 ∈ B ∧ fin h d = V ∧ Adds F F' fun w => w ∈ ins h d) ∧
      (ok = false → F' = F ∧ ∀ d : Dart rot, d.1 ∈ B → fin h d ≠ V) := by
  intro fuel
  induction fuel with
  | zero =>
    intro A B hr hB
    have : B = [] := List.length_eq_zero_iff.1 (by omega)
    subst this
    refine ⟨F, false, ?_, fun hc => (by cases hc), fun _ => ⟨rfl, fun d hd => by cases hd⟩⟩
    unfold testPathLoop
    rfl
  | succ fuel ih =>
    intro A B hr hB
    rcases B with _ | ⟨e, B⟩
    · refine ⟨F, false, ?_, fun hc => (by cases hc), fun _ => ⟨rfl, fun d hd => by cases hd⟩⟩
      unfold testPathLoop
      rfl
    · have he : e ∈ rot U := by rw [hr]; simp
      have he0 : e ≠ 0 := by have := (h.links.arc U e he).1; omega
      let d : Dart rot := ⟨e, U, he⟩
      have hd : own g d = U := own_eq h he
      have hs := hU d hd
      unfold testPathLoop
      simp only [List.headD_cons, he0, if_false]
      have ht := tryPath_eq (WInv.relabel h F) (d := d) hs V (g.eSize + 1) 0 (by
        have := plen_lt h hs
        have h2 : plen (WInv.relabel h F) d = plen h d := rfl
        rw [h2]; omega) (Nat.zero_le _)
      have ht' : tryPath (g.relabel F) V ((g.relabel F).eSize + 1) e = some (decide (fin h d = V)) := ht
      rw [ht']
      simp only [Option.bind_eq_bind, Option.bind_some]
      by_cases hV : fin h d = V
      · rw [decide_eq_true hV]
        simp only [if_true]
        obtain ⟨F', e1, ha⟩ := markPath_spec h hs (g.eSize + 1) 0 F hF (by have := plen_lt h hs; omega) (Nat.zero_le _)
        have e1' : markPath ((g.relabel F).eSize + 1) e (g.relabel F) = some (g.relabel F') := e1
        rw [e1']
        refine ⟨F', true, rfl, fun _ => ⟨d, by simp [d], hV, ha.congr fun w => ?_⟩, fun hc => by cases hc⟩
        rw [mem_ins]
        simp
      · rw [decide_eq_false hV]
        simp only [Bool.false_eq_true, if_false]
        have hn := next_eq (WInv.relabel h F).links (show rot U = A ++ e :: B from hr)
        rw [hn]
        simp only [Option.bind_some]
        obtain ⟨F', ok, e1, e2, e3⟩ := ih (A ++ [e]) B (by rw [hr]; simp) (by simpa using hB)
        refine ⟨F', ok, e1, fun hok => ?_, fun hok => ?_⟩
        · obtain ⟨d', k1, k2⟩ := e2 hok
          exact ⟨d', by simp [k1], k2⟩
        · obtain ⟨k1, k2⟩ := e3 hok
          refine ⟨k1, fun d' hd' => ?_⟩
          rcases List.mem_cons.1 hd' with k3 | k3
          · have : d' = d := Subtype.ext k3
            rw [this]; exact hV
          · exact k2 d' k3

/-- `_TestPath` finds a path if there is one and marks its inner vertices. -/
theorem testPath_spec (V : Nat) {U : Nat} (hUv : U < g.vSize) (hU : ∀ d : Dart rot, own g d = U → Ends h d)
    {F : Nat → Nat → Nat} (hF : ∀ w f, F w f / 2 = f / 2) :
    ∃ F' ok, testPath (g.relabel F) U V = some (g.relabel F', ok) ∧
      (ok = true → ∃ d : Dart rot, own g d = U ∧ fin h d = V ∧ Adds F F' fun w => w ∈ ins h d) ∧
      (ok = false → F' = F ∧ ∀ d : Dart rot, own g d = U → fin h d ≠ V) := by
  have hlen : (rot U).length ≤ g.eSize := nodup_length_le (h.links.nodup U) fun x hx => (h.links.arc U x hx).2
  obtain ⟨F', ok, e1, e2, e3⟩ := testPathLoop_spec h V hU hF g.eSize [] (rot U) rfl hlen
  refine ⟨F', ok, ?_, fun hok => ?_, fun hok => ?_⟩
  · unfold testPath
    rw [first_eq (WInv.relabel h F) hUv]
    simp only [Option.bind_eq_bind, Option.bind_some]
    exact e1
  · obtain ⟨d, k1, k2⟩ := e2 hok
    exact ⟨d, own_eq h k1, k2⟩
  · obtain ⟨k1, k2⟩ := e3 hok
    exact ⟨k1, fun d hd => k2 d (hd ▸ own_mem h d)⟩

end
end Test
end Verif
