import Verif.Draw.Rows

/-
The rows computed for the vertices: the components, one after the other.
-/
namespace Verif
namespace Draw
open Graph Props LC DFS PGraph

variable {s : PGraph} {rot : Nat → List Nat} {par : Nat → Nat}

/-- Write the rows `k`, `k + 1`, … -/
def posAll : List Nat → Nat → Ctx → Ctx
  | [], _, c => c
  | v :: l, k, c => posAll l (k + 1) { c with VI := Function.update c.VI v { c.VI v with pos := k } }

theorem assignRows_forward {g : Graph} {o : Coll} {r : Nat} : ∀ (l : List Nat) (fuel v k : Nat) (c : Ctx),
    forward o r fuel v = some l → (∀ x ∈ l, x < 1 + g.N) → assignRows g o r fuel v k c = some (posAll l k c, k + l.length) := by
  intro l
  induction l with
  | nil =>
    intro fuel v k c h _
    have hv : v = 0 := by
      by_contra hv
      cases fuel with
      | zero => simp [forward, hv] at h
      | succ fuel =>
        simp only [forward, if_neg hv, Option.bind_eq_bind, Option.pure_def, Option.bind_eq_some_iff] at h
        obtain ⟨a, -, b, -, h⟩ := h
        simp at h
    subst hv
    cases fuel <;> simp [assignRows, posAll]
  | cons x l ih =>
    intro fuel v k c h hb
    cases fuel with
    | zero => unfold forward at h; split at h <;> simp at h
    | succ fuel =>
      unfold forward at h
      split at h
      · simp at h
      · rename_i hv
        simp only [Option.bind_eq_bind, Option.pure_def, Option.bind_eq_some_iff] at h
        obtain ⟨n, hn, b, hb', h⟩ := h
        simp only [Option.some.injEq, List.cons.injEq] at h
        obtain ⟨rfl, rfl⟩ := h
        have hvN := hb v (by simp)
        unfold assignRows
        rw [if_neg hv]
        have h1 : rdDV c g v = some (c.VI v) := if_pos hvN
        have h2 : ∀ d, wrDV c g v d = some { c with VI := Function.update c.VI v d } := fun d => if_pos hvN
        rw [h1]
        simp only [Option.bind_eq_bind, Option.bind_some]
        rw [h2, Option.bind_some, hn, Option.bind_some, ih fuel n (k + 1) _ hb' (fun y hy => hb y (by simp [hy]))]
        simp only [posAll, List.length_cons, Option.some.injEq, Prod.mk.injEq, true_and]
        omega

theorem posAll_E : ∀ (l : List Nat) (k : Nat) (c : Ctx), (posAll l k c).E = c.E := by
  intro l
  induction l with
  | nil => intro k c; rfl
  | cons v l ih => intro k c; exact ih _ _

theorem posAll_out : ∀ (l : List Nat) (k : Nat) (c : Ctx) (x : Nat), x ∉ l → (posAll l k c).VI x = c.VI x := by
  intro l
  induction l with
  | nil => intro k c x _; rfl
  | cons v l ih =>
    intro k c x hx
    rw [List.mem_cons, not_or] at hx
    rw [posAll, ih _ _ x hx.2]
    exact Function.update_of_ne hx.1 _ _

theorem posAll_in : ∀ (l : List Nat) (k : Nat) (c : Ctx) (x : Nat), l.Nodup → x ∈ l →
    (posAll l k c).VI x = { c.VI x with pos := ((k + l.idxOf x : Nat) : Int) } := by
  intro l
  induction l with
  | nil => intro k c x _ hx; simp at hx
  | cons v l ih =>
    intro k c x hnd hx
    rw [List.nodup_cons] at hnd
    by_cases hv : x = v
    · subst hv
      rw [posAll, posAll_out _ _ _ _ hnd.1]
      simp
    · have hx' : x ∈ l := (List.mem_cons.1 hx).resolve_left hv
      rw [posAll, ih _ _ x hnd.2 hx']
      dsimp only
      rw [Function.update_of_ne hv, List.idxOf_cons_ne _ (Ne.symm hv)]
      congr 2
      omega

/-- What the computation has done for the vertices of `L`: they have got the rows 0, 1, … in this order. -/
structure GInv (s : PGraph) (par : Nat → Nat) (c0 c : Ctx) (L : List Nat) : Prop where
  nodup : L.Nodup
  sub : ∀ x ∈ L, IsPrimary s x
  up : ∀ x ∈ L, par x ≠ 0 → par x ∈ L
  down : ∀ x, IsPrimary s x → par x ∈ L → x ∈ L
  edges : c.E = c0.E
  rest : ∀ v, v ∉ L → c.VI v = c0.VI v
  data : ∀ v, c.VI v = { c0.VI v with flag := (c.VI v).flag, pos := (c.VI v).pos }
  pos : ∀ x ∈ L, (c.VI x).pos = (L.idxOf x : Int)
  noTie : ∀ x ∈ L, par x ≠ 0 → (c0.VI x).flag ≠ 1
  first : ∀ x ∈ L, par x ≠ 0 → (c0.VI x).ancestorChild = 0 → (c.VI x).flag = newFlag true (c0.VI x).flag
  next : ∀ x ∈ L, par x ≠ 0 → AncEq par (c0.VI x).ancestorChild (par x) →
    (c.VI x).flag = newFlag (decide ((c.VI (c0.VI x).ancestorChild).flag = 3)) (c0.VI x).flag
  root : ∀ x ∈ L, par x = 0 → (c.VI x).flag = 3
  flag : ∀ x ∈ L, (c.VI x).flag = 3 ∨ (c.VI x).flag = 4
  below : ∀ x ∈ L, par x ≠ 0 → (c.VI x).flag = 3 → (c.VI (par x)).pos < (c.VI x).pos
  above : ∀ x ∈ L, par x ≠ 0 → (c.VI x).flag = 4 → par (par x) ≠ 0 → (c.VI x).pos < (c.VI (par x)).pos
  block : ∀ x ∈ L, par x ≠ 0 → ∀ y ∈ L, AncEq par x y →
    ((c.VI (par x)).pos < (c.VI y).pos ↔ (c.VI (par x)).pos < (c.VI x).pos)
  top : ∀ x ∈ L, par x = 0 → ∀ y ∈ L, AncEq par x y → (c.VI x).pos ≤ (c.VI y).pos

theorem OInv.full {r c0 c o L} (h : OInv s par r c0 c o L []) (hF : Forest s id par) :
    L.head? = some r ∧ ∀ x, IsPrimary s x → AncEq par r x → x ∈ L := by
  have hh : L.head? = some r := by
    rcases h.head with ⟨-, hh⟩ | hh
    · simp at hh
    · exact hh
  refine ⟨hh, fun x hx ha => ?_⟩
  induction ha with
  | refl => exact List.mem_of_mem_head? (by rw [hh]; rfl)
  | @up b hp ha ih =>
    rcases h.closed b hx (ih (hF.up b hx hp).1) with h1 | h1
    · exact h1
    · simp at h1

/-- One more component. -/
theorem GInv.component {r c0 c c' o L L'} (hg : GInv s par c0 c L) (hF : Forest s id par) (hr : IsPrimary s r)
    (hr0 : par r = 0) (hrL : r ∉ L) (h : OInv s par r c c' o L' []) : GInv s par c0 (posAll L' L.length c') (L ++ L') := by
  obtain ⟨hh, hfull⟩ := h.full hF
  have hrm : r ∈ L' := List.mem_of_mem_head? (by rw [hh]; rfl)
  -- a vertex of a tree whose root is not in `L` is not in `L`
  have hout : ∀ x, IsPrimary s x → AncEq par r x → x ∉ L := by
    intro x hx ha
    induction ha with
    | refl => exact hrL
    | @up b hp ha ih => exact fun hb => ih (hF.up b hx hp).1 (hg.up b hb hp)
  have hdis : ∀ x ∈ L', x ∉ L := fun x hx => hout x (h.sub x hx).1 (h.sub x hx).2
  have hdis' : ∀ x ∈ L, x ∉ L' := fun x hx hx' => hdis x hx' hx
  have hne : ∀ x ∈ L', par x ≠ 0 → x ≠ r := fun x _ hp e => hp (e ▸ hr0)
  have hre : ∀ x ∈ L', par x = 0 → x = r := by
    intro x hx hp
    by_contra hq
    exact (h.up x hx hq).1 hp
  have hc0 : ∀ x ∈ L', c.VI x = c0.VI x := fun x hx => hg.rest x (hdis x hx)
  have old : ∀ x, x ∉ L' → (posAll L' L.length c').VI x = c.VI x := fun x hx => by
    rw [posAll_out _ _ _ _ hx, h.rest x hx]
  have new : ∀ x ∈ L', (posAll L' L.length c').VI x = { c'.VI x with pos := ((L.length + L'.idxOf x : Nat) : Int) } :=
    fun x hx => posAll_in _ _ _ _ h.nodup hx
  have nf : ∀ x, ((posAll L' L.length c').VI x).flag = (c'.VI x).flag := by
    intro x
    by_cases hx : x ∈ L'
    · rw [new x hx]
    · rw [old x hx, h.rest x hx]
  have np : ∀ x ∈ L', ((posAll L' L.length c').VI x).pos = ((L.length + L'.idxOf x : Nat) : Int) := fun x hx => by rw [new x hx]
  refine ⟨?_, ?_, ?_, ?_, ?_, ?_, ?_, ?_, ?_, ?_, ?_, ?_, ?_, ?_, ?_, ?_, ?_⟩
  · rw [List.nodup_append]
    exact ⟨hg.nodup, h.nodup, fun a ha b hb e => hdis' a ha (e ▸ hb)⟩
  · intro x hx
    rcases List.mem_append.1 hx with hx | hx
    · exact hg.sub x hx
    · exact (h.sub x hx).1
  · intro x hx hp
    rw [List.mem_append]
    rcases List.mem_append.1 hx with hx | hx
    · exact .inl (hg.up x hx hp)
    · exact .inr (h.up x hx (hne x hx hp)).2
  · intro x hx hp
    rw [List.mem_append] at hp ⊢
    rcases hp with hp | hp
    · exact .inl (hg.down x hx hp)
    · rcases h.closed x hx hp with h1 | h1
      · exact .inr h1
      · simp at h1
  · rw [posAll_E, h.edges, hg.edges]
  · intro v hv
    rw [List.mem_append, not_or] at hv
    rw [old v hv.2, hg.rest v hv.1]
  · intro v
    by_cases hv : v ∈ L'
    · rw [new v hv]
      have := h.data v
      rw [hc0 v hv] at this
      rw [this]
    · rw [old v hv]
      exact hg.data v
  · intro x hx
    rcases List.mem_append.1 hx with hx | hx
    · rw [old x (hdis' x hx), hg.pos x hx, List.idxOf_append_of_mem hx]
    · rw [np x hx, List.idxOf_append_of_notMem (hdis x hx)]
  · intro x hx hp
    rcases List.mem_append.1 hx with hx | hx
    · exact hg.noTie x hx hp
    · rw [← hc0 x hx]
      exact h.noTie x hx (hne x hx hp)
  · intro x hx hp ha
    rw [nf]
    rcases List.mem_append.1 hx with hx | hx
    · rw [h.rest x (hdis' x hx)]
      exact hg.first x hx hp ha
    · rw [← hc0 x hx] at ha ⊢
      exact h.first x hx (hne x hx hp) ha
  · intro x hx hp ha
    rw [nf, nf]
    rcases List.mem_append.1 hx with hx | hx
    · have hm : (c0.VI x).ancestorChild ∉ L' := by
        intro hm
        exact hout (par x) (hF.up x (hg.sub x hx) hp).1 (AncEq.trans (h.sub _ hm).2 ha) (hg.up x hx hp)
      rw [h.rest x (hdis' x hx), h.rest _ hm]
      exact hg.next x hx hp ha
    · rw [← hc0 x hx] at ha ⊢
      exact h.next x hx (hne x hx hp) ha
  · intro x hx hp
    rw [nf]
    rcases List.mem_append.1 hx with hx | hx
    · rw [h.rest x (hdis' x hx)]
      exact hg.root x hx hp
    · have := hre x hx hp
      subst this
      exact h.root hx
  · intro x hx
    rw [nf]
    rcases List.mem_append.1 hx with hx | hx
    · rw [h.rest x (hdis' x hx)]
      exact hg.flag x hx
    · by_cases hq : x = r
      · subst hq
        exact .inl (h.root hx)
      · exact h.flag x hx hq
  · intro x hx hp hf
    rw [nf] at hf
    rcases List.mem_append.1 hx with hx | hx
    · rw [old x (hdis' x hx), old (par x) (hdis' _ (hg.up x hx hp))]
      rw [h.rest x (hdis' x hx)] at hf
      exact hg.below x hx hp hf
    · rw [np x hx, np _ (h.up x hx (hne x hx hp)).2]
      have := h.below x hx (hne x hx hp) hf
      omega
  · intro x hx hp hf hpp
    rw [nf] at hf
    rcases List.mem_append.1 hx with hx | hx
    · rw [old x (hdis' x hx), old (par x) (hdis' _ (hg.up x hx hp))]
      rw [h.rest x (hdis' x hx)] at hf
      exact hg.above x hx hp hf hpp
    · rw [np x hx, np _ (h.up x hx (hne x hx hp)).2]
      have := h.above x hx (hne x hx hp) hf (fun e => hpp (e ▸ hr0))
      omega
  · intro x hx hp y hy hxy
    rcases List.mem_append.1 hx with hx | hx
    · have hyL : y ∈ L := by
        rcases List.mem_append.1 hy with hy | hy
        · exact hy
        · -- then `x` would be in the new tree as well
          exfalso
          rcases ancEq_total hxy (h.sub y hy).2 with h1 | h1
          · rcases h1.cases with e | h1
            · exact hrL (e ▸ hx)
            · exact h1.1 hr0
          · exact hout x (hg.sub x hx) h1 hx
      rw [old x (hdis' x hx), old (par x) (hdis' _ (hg.up x hx hp)), old y (hdis' y hyL)]
      exact hg.block x hx hp y hyL hxy
    · have hyL : y ∈ L' := by
        rcases List.mem_append.1 hy with hy' | hy
        · exact hfull y (hg.sub y hy') (AncEq.trans (h.sub x hx).2 hxy)
        · exact hy
      rw [np x hx, np _ (h.up x hx (hne x hx hp)).2, np y hyL]
      have := h.block x hx (hne x hx hp) y hyL hxy
      omega
  · intro x hx hp y hy hxy
    rcases List.mem_append.1 hx with hx | hx
    · have hyL : y ∈ L := by
        rcases List.mem_append.1 hy with hy | hy
        · exact hy
        · exfalso
          rcases ancEq_total hxy (h.sub y hy).2 with h1 | h1
          · rcases h1.cases with e | h1
            · exact hrL (e ▸ hx)
            · exact h1.1 hr0
          · exact hout x (hg.sub x hx) h1 hx
      rw [old x (hdis' x hx), old y (hdis' y hyL)]
      exact hg.top x hx hp y hyL hxy
    · have hyL : y ∈ L' := by
        rcases List.mem_append.1 hy with hy' | hy
        · exact hfull y (hg.sub y hy') (AncEq.trans (h.sub x hx).2 hxy)
        · exact hy
      have hxr := hre x hx hp
      subst hxr
      rw [np x hx, np y hyL]
      have : L'.idxOf x = 0 := by
        cases L' with
        | nil => simp at hh
        | cons a T =>
          have : a = x := by simpa using hh
          subst this
          exact List.idxOf_cons_self
      omega

theorem GInv.empty (c : Ctx) : GInv s par c c [] := by
  refine ⟨by simp, by simp, by simp, by simp, rfl, fun _ _ => rfl, fun _ => rfl, by simp, by simp, by simp, by simp, by simp, by simp,
    by simp, by simp, by simp, by simp⟩

theorem component_spec (hp : PInv s rot) (hF : Forest s id par) {r : Nat} (hr : IsPrimary s r) (hr0 : par r = 0) {c : Ctx}
    (hC : ∀ v, IsPrimary s v → (c.VI v).ancestorChild ≤ s.g.N) (stk : List Nat) (k : Nat) :
    ∃ stk' res, rowsOfComponent (ws s stk) c r k = some (ws s stk', res) ∧
      ((res = none ∧ ∃ x, IsPrimary s x ∧ AncEq par r x ∧ x ≠ r ∧ (c.VI x).flag = 1) ∨
        ∃ c' o L, res = some (posAll L k c', k + L.length) ∧ OInv s par r c c' o L []) := by
  have hN : 1 ≤ s.g.N := by have := hr.1; have := hr.2; omega
  have hpush : (ws s stk).g.clearStack.push r = some (ws s [r]).g := by
    have : 0 < s.g.stackCap := by have := hp.cap'; omega
    exact if_pos this
  unfold rowsOfComponent
  rw [hpush]
  simp only [Option.bind_eq_bind, Option.bind_some]
  have e1 : (ws s stk).setG (ws s [r]).g = ws s [r] := rfl
  have e2 : (ws s [r]).g.N = s.g.N := rfl
  rw [e1, e2]
  obtain ⟨stk', res, h1, h2⟩ := orderLoop_spec hp hF hr hr0 hC s.g.N c _ [] [r] (OInv.start hr c) (by simp)
  rw [h1]
  simp only [Option.bind_some]
  rcases h2 with ⟨rfl, hx⟩ | ⟨c', o', L', rfl, hO⟩
  · exact ⟨stk', none, rfl, .inl ⟨rfl, hx⟩⟩
  · obtain ⟨hh, -⟩ := hO.full hF
    refine ⟨stk', _, ?_, .inr ⟨c', o', L', rfl, hO⟩⟩
    cases L' with
    | nil => simp at hh
    | cons a T =>
      have ha : a = r := by simpa using hh
      subst ha
      have hlen := nodup_le hO.nodup (fun x hx => (hO.sub x hx).1)
      have hfw := forward_ok hO.ring (fun y hy => by
          rw [hO.size]
          have := (hO.sub y hy).1
          have := this.1
          have := (hO.sub y hy).1.2
          omega) hO.nodup T [] a (1 + s.g.N) rfl (by rw [List.length_cons] at hlen; omega)
      have hb : ∀ x ∈ a :: T, x < 1 + (ws s stk').g.N := fun x hx => by
        have h1 := (hO.sub x hx).1.2
        show x < 1 + s.g.N
        omega
      have := assignRows_forward (g := (ws s stk').g) (a :: T) (1 + s.g.N) a k c' hfw hb
      dsimp only
      have e3 : (ws s stk').g.N = s.g.N := rfl
      rw [e3, this]
      rfl

theorem rowsLoop_spec (hp : PInv s rot) (hF : Forest s id par) {c0 : Ctx}
    (hC : ∀ v, IsPrimary s v → (c0.VI v).ancestorChild ≤ s.g.N) : ∀ (vs : List Nat) (stk : List Nat) (c : Ctx) (L : List Nat),
    (∀ v ∈ vs, IsPrimary s v) → vs.Nodup → GInv s par c0 c L → (∀ v ∈ vs, par v = 0 → v ∉ L) →
    ∃ stk' res, rowsLoop vs (ws s stk) c L.length = some (ws s stk', res) ∧
      ((res = none ∧ ∃ x, IsPrimary s x ∧ par x ≠ 0 ∧ (c0.VI x).flag = 1) ∨
        ∃ c' L', res = some (c', L'.length) ∧ GInv s par c0 c' L' ∧ (∀ v ∈ L, v ∈ L') ∧ ∀ v ∈ vs, par v = 0 → v ∈ L') := by
  intro vs
  induction vs with
  | nil => intro stk c L _ _ h _; exact ⟨stk, _, rfl, .inr ⟨c, L, rfl, h, fun _ h => h, by simp⟩⟩
  | cons v vs ih =>
    intro stk c L hv hnd hG hr
    rw [List.nodup_cons] at hnd
    have hvp := hv v (by simp)
    have hpar : (ws s stk).getParent v = some (par v) := hF.parent v hvp
    unfold rowsLoop
    rw [hpar]
    simp only [Option.bind_eq_bind, Option.bind_some]
    by_cases h0 : par v = 0
    · rw [if_pos h0]
      have hCc : ∀ x, IsPrimary s x → (c.VI x).ancestorChild ≤ s.g.N := fun x hx => by
        rw [hG.data x]
        exact hC x hx
      obtain ⟨stk', res, h1, h2⟩ := component_spec hp hF hvp h0 hCc stk L.length
      rw [h1]
      simp only [Option.bind_some]
      have hvL := hr v (by simp) h0
      rcases h2 with ⟨rfl, x, hx1, hx2, hx3, hx4⟩ | ⟨c', o, L', rfl, hO⟩
      · refine ⟨stk', none, rfl, .inl ⟨rfl, x, hx1, ?_, ?_⟩⟩
        · rcases hx2.cases with e | e
          · exact absurd e.symm hx3
          · exact e.1
        · have : x ∉ L := by
            clear hx3 hx4 h1
            intro hxL
            induction hx2 with
            | refl => exact hvL hxL
            | @up b hpb ha ihb => exact ihb (hF.up b hx1 hpb).1 (hG.up b hxL hpb)
          rwa [hG.rest x this] at hx4
      · have hG' := hG.component hF hvp h0 hvL hO
        have hfull := hO.full hF
        have hvL' : v ∈ L' := List.mem_of_mem_head? (by rw [hfull.1]; rfl)
        obtain ⟨stk'', res, h3, h4⟩ := ih stk' _ (L ++ L') (fun x hx => hv x (by simp [hx])) hnd.2 hG' (by
          intro x hx hx0 hm
          rcases List.mem_append.1 hm with hm | hm
          · exact hr x (by simp [hx]) hx0 hm
          · rcases (hO.sub x hm).2.cases with e | e
            · exact hnd.1 (e ▸ hx)
            · exact e.1 hx0)
        dsimp only
        rw [List.length_append] at h3
        refine ⟨stk'', res, h3, ?_⟩
        rcases h4 with h4 | ⟨c'', L'', h5, h6, h7, h8⟩
        · exact .inl h4
        · refine .inr ⟨c'', L'', h5, h6, fun x hx => h7 x (by simp [hx]), ?_⟩
          intro x hx hx0
          rcases List.mem_cons.1 hx with rfl | hx
          · exact h7 x (by simp [hvL'])
          · exact h8 x hx hx0
    · rw [if_neg h0]
      obtain ⟨stk', res, h3, h4⟩ := ih stk c L (fun x hx => hv x (by simp [hx])) hnd.2 hG (fun x hx => hr x (by simp [hx]))
      refine ⟨stk', res, h3, ?_⟩
      rcases h4 with h4 | ⟨c'', L'', h5, h6, h7, h8⟩
      · exact .inl h4
      · refine .inr ⟨c'', L'', h5, h6, h7, ?_⟩
        intro x hx hx0
        rcases List.mem_cons.1 hx with rfl | hx
        · exact absurd hx0 h0
        · exact h8 x hx hx0

theorem computeRows_spec (hp : PInv s rot) (hF : Forest s id par) {c : Ctx}
    (hC : ∀ v, IsPrimary s v → (c.VI v).ancestorChild ≤ s.g.N) :
    ∃ stk' res, computeRows s c = some (ws s stk', res) ∧
      ((res = none ∧ ∃ x, IsPrimary s x ∧ par x ≠ 0 ∧ (c.VI x).flag = 1) ∨
        ∃ c' L, res = some c' ∧ GInv s par c c' L ∧ ∀ v, v ∈ L ↔ IsPrimary s v) := by
  have hs : s = ws s s.g.stack := rfl
  have hvs : ∀ v ∈ verts s.g, IsPrimary s v := by
    intro v hv
    unfold verts at hv
    rw [List.mem_map] at hv
    obtain ⟨a, ha, rfl⟩ := hv
    rw [List.mem_range] at ha
    exact ⟨by omega, by omega⟩
  have hvs' : ∀ v, IsPrimary s v → v ∈ verts s.g := by
    intro v hv
    unfold verts
    rw [List.mem_map]
    have := hv.1; have := hv.2
    exact ⟨v - 1, List.mem_range.2 (by omega), by omega⟩
  have hnd : (verts s.g).Nodup := by
    unfold verts
    exact List.Nodup.map (fun a b h => by simpa using h) List.nodup_range
  obtain ⟨stk', res, h1, h2⟩ := rowsLoop_spec hp hF hC (verts s.g) s.g.stack c [] hvs hnd (GInv.empty c) (by simp)
  unfold computeRows
  rw [← hs] at h1
  have h1' : rowsLoop (verts s.g) s c 0 = some (ws s stk', res) := h1
  rw [h1']
  refine ⟨stk', _, rfl, ?_⟩
  rcases h2 with ⟨rfl, h⟩ | ⟨c', L', rfl, h3, -, h5⟩
  · exact .inl ⟨rfl, h⟩
  · refine .inr ⟨c', L', rfl, h3, fun v => ⟨h3.sub v, ?_⟩⟩
    intro hv
    induction v using Nat.strong_induction_on with
    | _ v ih =>
      by_cases h0 : par v = 0
      · exact h5 v (hvs' v hv) h0
      · have := hF.up v hv h0
        exact h3.down v hv (ih (par v) this.2.1 this.1)

end Draw
end Verif
