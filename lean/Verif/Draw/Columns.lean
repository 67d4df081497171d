import Verif.Draw.Sweep
import Verif.Map.Graph
import Verif.Spec.Drawing

/-
The columns computed for the edges: the rows one after the other.
-/
namespace Verif
namespace Draw
open Graph Props LC DFS PGraph

variable {s : PGraph} {rot : Nat → List Nat} {par : Nat → Nat} {c : Ctx}

theorem circ_next (hp : PInv s rot) {v x : Nat} {A B : List Nat} (hs : rot v = A ++ x :: B) :
    Test.nextCirc s.g x = some ((B ++ (A ++ [x])).headD 0) := by
  have hx : x ∈ rot v := by rw [hs]; simp
  have hn := next_eq hp.inv.links hs
  unfold Test.nextCirc
  rw [hn]
  simp only [Option.bind_eq_bind, Option.bind_some]
  have ht := hp.inv.twins v x hx
  have ht' := (hp.inv.links.arc _ _ ht).2
  have hv := hp.inv.links.vert v x hx
  have h0 := hp.inv.links.zero_not_mem v
  rw [getNbr_eq ht', hp.inv.owner v x hx]
  cases B with
  | nil =>
    rw [if_neg (by simp)]
    simp only [Option.bind_some]
    rw [getArc_eq hv.2, hp.inv.links.vlink v false hv.2]
    unfold endIn dir
    rw [hs]
    rfl
  | cons b B =>
    rw [if_pos]
    · rfl
    · intro hb
      have : b = 0 := hb
      rw [hs, this] at h0
      simp at h0

theorem circ_chain (hp : PInv s rot) {v x : Nat} {A B : List Nat} (hs : rot v = A ++ x :: B) :
    List.IsChain (fun x y => Test.nextCirc s.g x = some y) (x :: B ++ (A ++ [x])) := by
  -- in every tail of the list
  have key : ∀ (D C : List Nat), rot v = C ++ D → List.IsChain (fun x y => Test.nextCirc s.g x = some y) D := by
    intro D
    induction D with
    | nil => intro C _; exact .nil
    | cons d D ih =>
      intro C hC
      have h1 := ih (C ++ [d]) (by simpa using hC)
      cases D with
      | nil => exact .singleton d
      | cons d' D =>
        refine List.isChain_cons_cons.2 ⟨?_, h1⟩
        exact circ_next hp hC
  have hall := key (rot v) [] rfl
  rw [hs] at hall
  have hA : List.IsChain (fun x y => Test.nextCirc s.g x = some y) (A ++ [x]) := by
    have : A ++ x :: B = (A ++ [x]) ++ B := by simp
    rw [this] at hall
    exact (List.isChain_append.1 hall).1
  have hB := key (x :: B) A hs
  refine List.isChain_append.2 ⟨hB, hA, ?_⟩
  intro y hy z hz
  -- from the last arc to the first
  have hne : x :: B ≠ [] := by simp
  rw [List.getLast?_eq_getLast_of_ne_nil hne, Option.mem_def, Option.some.injEq] at hy
  have hsp : rot v = (A ++ (x :: B).dropLast) ++ y :: [] := by
    rw [List.append_assoc, ← hy, List.dropLast_append_getLast hne]
    exact hs
  have := circ_next hp hsp
  rw [this]
  rw [Option.mem_def] at hz
  have h2 : ([] ++ ((A ++ (x :: B).dropLast) ++ [y])) = A ++ x :: B := by
    rw [List.nil_append, ← hs, hsp]
  rw [h2]
  have h3 : (A ++ x :: B).headD 0 = (A ++ [x]).headD 0 := by cases A <;> rfl
  rw [h3, List.headD_eq_head?_getD, hz]
  rfl

/-- The arcs of the vertices in the first rows. -/
def Above (rot : Nat → List Nat) (c : Ctx) (p : Nat) (e : Nat) : Prop := ∃ u, e ∈ rot u ∧ (c.VI u).pos < p

theorem not_above (hp : PInv s rot) {v a p : Nat} (hv : (c.VI v).pos = p) (hd : Down s rot c v a) :
    ¬ Above rot c p a ∧ ¬ Above rot c p (twin a) := by
  constructor
  · rintro ⟨u, hu, h⟩
    have := hp.inv.links.disj _ _ _ hu hd.1
    subst this
    omega
  · rintro ⟨u, hu, h⟩
    have := hp.inv.links.disj _ _ _ hu (hp.inv.twins v a hd.1)
    subst this
    have := hd.2
    omega

/-- One row. -/
theorem sweepVertex_spec (hp : PInv s rot) (hF : Forest s id par) (hh : s.g.holes = [])
    (hrow : ∀ v w, IsPrimary s v → IsPrimary s w → (c.VI v).pos = (c.VI w).pos → v = w)
    (hroot : ∀ v e, IsPrimary s v → par v = 0 → e ∈ rot v → (c.VI v).pos < (c.VI (s.g.E e).nbr).pos)
    {order : Nat → Option Nat} {v p : Nat} (hv : IsPrimary s v) (hvp : (c.VI v).pos = p) (ho : order p = some v)
    {w : Sweep} {L : List Nat} (h : SInv s rot par c w L (Above rot c p)) :
    ∃ res, sweepVertex s c order p w = some res ∧
      ((res = none ∧ par v ≠ 0 ∧ ∀ u e, Down s rot c u e → (s.g.E e).nbr ≠ v) ∨
        ((par v ≠ 0 → ∃ u e, Down s rot c u e ∧ (s.g.E e).nbr = v) ∧
          ∃ w' L', res = some w' ∧ SInv s rot par c w' L' (Above rot c (p + 1)))) := by
  have hvs : v < s.g.vSize := by unfold vSize; have := hv.2; omega
  have hvl : v < 1 + s.g.N := by have := hv.2; omega
  have hnext : ∀ w' L', SInv s rot par c w' L' (fun x => Above rot c p x ∨ x ∈ rot v) → SInv s rot par c w' L' (Above rot c (p + 1)) := by
    intro w' L' h'
    refine h'.congr fun u e he => ?_
    constructor
    · rintro (⟨u', h1, h2⟩ | h1)
      · exact ⟨u', h1, by omega⟩
      · exact ⟨v, h1, by omega⟩
    · rintro ⟨u', h1, h2⟩
      by_cases hq : (c.VI u').pos < p
      · exact .inl ⟨u', h1, hq⟩
      · right
        have hu' : IsPrimary s u' := hp.prim u' e h1
        have := hrow u' v hu' hv (by omega)
        exact this ▸ h1
  unfold sweepVertex
  rw [ho]
  simp only [Option.bind_eq_bind, Option.bind_some]
  rw [hF.parent v hv, Option.bind_some]
  by_cases h0 : par v = 0
  · rw [if_pos h0]
    have hwr : wrGen s.g w v (-1) = some { w with gen := Function.update w.gen v (-1) } := if_pos hvl
    rw [hwr, Option.bind_some]
    have hwk := walk_eq hp.inv.links hvs false
    unfold walk at hwk
    cases hfa : s.g.getArc v false with
    | none => simp [hfa] at hwk
    | some f =>
      have hwk' : s.g.walkFrom false s.g.eSize f = some (rot v) := by simpa [hfa, dir] using hwk
      have h' : SInv s rot par c { w with gen := Function.update w.gen v (-1) } L (Above rot c p) := by
        refine ⟨h.size, h.ring, h.nodup, h.head, h.mem, fun x hx hpx => ?_⟩
        have hne : x ≠ v := fun e => hpx (e ▸ h0)
        have hg : Function.update w.gen v (-1) x = w.gen x := Function.update_of_ne hne _ _
        dsimp only
        rw [hg]
        exact h.gen x hx hpx
      obtain ⟨w', L', j1, j2⟩ := rootArcs_spec hp hh (v := v) (rot v) s.g.eSize f _ L _ hwk' h' (hp.inv.links.nodup v) (by
        intro a ha
        have hd : Down s rot c v a := ⟨ha, hroot v a hv h0 ha⟩
        exact ⟨hd, not_above hp hvp hd⟩)
      rw [Option.bind_some, j1, Option.bind_some]
      exact ⟨_, rfl, .inr ⟨fun hq => absurd h0 hq, w', L', rfl, hnext w' L' j2⟩⟩
  · rw [if_neg h0]
    have hrg : rdGen s.g w v = some (w.gen v) := if_pos hvl
    rw [hrg, Option.bind_some]
    rcases h.gen v hv h0 with ⟨hg, hno⟩ | ⟨u, a, hg, hd, hT, hn⟩
    · rw [if_pos hg]
      refine ⟨_, rfl, .inl ⟨rfl, h0, fun u e hue hev => ?_⟩⟩
      refine hno u e hue ⟨u, hue.1, ?_⟩ hev
      have := hue.2
      rw [hev, hvp] at this
      exact this
    · have ha2 := (hp.inv.links.arc u a hd.1).1
      rw [hg, if_neg (by omega)]
      have hidx : idx (a : Int) = some a := by unfold idx; rw [if_pos (by omega)]; simp
      rw [hidx, Option.bind_some]
      -- the generator edge seen from `v`
      have htw : twin a ∈ rot v := by rw [← hn]; exact hp.inv.twins u a hd.1
      obtain ⟨A, B, hs⟩ := List.mem_iff_append.1 htw
      have hch := circ_chain hp hs
      have hnx : Test.nextCirc s.g (twin a) = some ((B ++ A ++ [twin a]).headD 0) := by
        have := circ_next hp hs
        rwa [← List.append_assoc] at this
      rw [hnx, Option.bind_some]
      have hnd := hp.inv.links.nodup v
      rw [hs] at hnd
      have hnd' : (twin a :: (B ++ A)).Nodup := by
        have : (twin a :: B ++ A).Nodup := List.nodup_append_comm.1 hnd
        rwa [List.cons_append] at this
      rw [List.nodup_cons] at hnd'
      have hin : twin a / 2 ∈ L := by
        rw [h.mem]
        exact ⟨u, a, hd, hT, by rw [twin_div]⟩
      have hsub : ∀ x, x ∈ B ++ A → x ∈ rot v := fun x hx => by
        rw [hs]
        simp only [List.mem_append, List.mem_cons] at hx ⊢
        tauto
      have hlen : (B ++ A).length ≤ s.g.eSize := by
        have h1 : (rot v).length ≤ s.g.eSize := by
          have := List.Nodup.subperm (hp.inv.links.nodup v) (l₂ := List.range s.g.eSize)
            (fun x hx => List.mem_range.2 (hp.inv.links.arc v x hx).2)
          simpa using this.length_le
        rw [hs] at h1
        simp only [List.length_append, List.length_cons] at h1 ⊢
        omega
      have hch' : List.IsChain (fun x y => Test.nextCirc s.g x = some y) ((B ++ A) ++ [twin a]) := by
        have := (List.isChain_cons.1 (show List.IsChain _ (twin a :: (B ++ (A ++ [twin a]))) from hch)).2
        rwa [← List.append_assoc] at this
      obtain ⟨w', L', j1, j2⟩ := downArcs_spec hp hh hvp (B ++ A) s.g.eSize _ (twin a / 2) w L _ rfl hch' hlen h hin hnd'.2 hnd'.1
        (fun b hb => ⟨hsub b hb, fun hdb => not_above hp hvp hdb⟩)
      rw [j1, Option.bind_some]
      refine ⟨_, rfl, .inr ⟨fun _ => ⟨u, a, hd, hn⟩, w', L', rfl, hnext w' L' ?_⟩⟩
      -- the generator edge itself does not lead down
      have hsk := j2.skip (a := twin a) (by
        intro u' hu'
        have h1 := hp.inv.links.disj _ _ _ hu'.1 htw
        subst h1
        have h2 := hu'.2
        rw [hp.inv.owner u a hd.1] at h2
        have h3 := hd.2
        rw [hn] at h3
        omega)
      refine hsk.congr fun u' e _ => ?_
      rw [hs]
      simp only [List.mem_append, List.mem_cons]
      tauto

/-- The rows from `p` on. -/
theorem sweepLoop_spec (hp : PInv s rot) (hF : Forest s id par) (hh : s.g.holes = [])
    (hrow : ∀ v w, IsPrimary s v → IsPrimary s w → (c.VI v).pos = (c.VI w).pos → v = w)
    (hroot : ∀ v e, IsPrimary s v → par v = 0 → e ∈ rot v → (c.VI v).pos < (c.VI (s.g.E e).nbr).pos)
    {order : Nat → Option Nat} (ho : ∀ p : Nat, p < s.g.N → ∃ v, IsPrimary s v ∧ (c.VI v).pos = p ∧ order p = some v) :
    ∀ (k p : Nat), p + k ≤ s.g.N → ∀ (w : Sweep) (L : List Nat), SInv s rot par c w L (Above rot c p) →
    ∃ res, sweepLoop s c order (List.range' p k) w = some res ∧
      ((res = none ∧ ∃ v, IsPrimary s v ∧ par v ≠ 0 ∧ ∀ u e, Down s rot c u e → (s.g.E e).nbr ≠ v) ∨
        ((∀ v, IsPrimary s v → par v ≠ 0 → (p : Int) ≤ (c.VI v).pos → (c.VI v).pos < ((p + k : Nat) : Int) →
            ∃ u e, Down s rot c u e ∧ (s.g.E e).nbr = v) ∧
          ∃ w' L', res = some w' ∧ SInv s rot par c w' L' (Above rot c (p + k)))) := by
  intro k
  induction k with
  | zero =>
    intro p _ w L h
    exact ⟨_, rfl, .inr ⟨fun v _ _ h1 h2 => by omega, w, L, rfl, h⟩⟩
  | succ k ih =>
    intro p hk w L h
    obtain ⟨v, hv, hvp, hov⟩ := ho p (by omega)
    obtain ⟨res, h1, h2⟩ := sweepVertex_spec hp hF hh hrow hroot hv hvp hov h
    rw [List.range'_succ]
    unfold sweepLoop
    rw [h1]
    simp only [Option.bind_eq_bind, Option.bind_some]
    rcases h2 with ⟨rfl, h3, h4⟩ | ⟨h3, w', L', rfl, h4⟩
    · exact ⟨none, rfl, .inl ⟨rfl, v, hv, h3, h4⟩⟩
    · obtain ⟨res, j1, j2⟩ := ih (p + 1) (by omega) w' L' h4
      refine ⟨res, j1, ?_⟩
      rcases j2 with j2 | ⟨j2, j3⟩
      · exact .inl j2
      · refine .inr ⟨fun x hx hpx hx1 hx2 => ?_, ?_⟩
        · by_cases hq : (c.VI x).pos = p
          · have := hrow x v hx hv (by omega)
            subst this
            exact h3 hpx
          · exact j2 x hx hpx (by omega) (by omega)
        · rw [show p + (k + 1) = p + 1 + k by omega]
          exact j3

theorem sortRows_spec (hR : RowsFilled s.g.N c) :
    ∃ o, sortRows s.g c = some o ∧ ∀ p : Nat, p < s.g.N → ∃ v, IsPrimary s v ∧ (c.VI v).pos = p ∧ o p = some v := by
  have key : ∀ (l : List Nat) (o : Nat → Option Nat) (P : Nat → Prop), (∀ v ∈ l, IsPrimary s v) → (∀ v, P v → IsPrimary s v) →
      (∀ v, P v → o (c.VI v).pos.toNat = some v) →
      ∃ o', l.foldlM (fun o v => do
        let d ← rdDV c s.g v
        let i ← idx d.pos
        if i < s.g.N then some (Function.update o i (some v)) else none) o = some o' ∧
        ∀ v, P v ∨ v ∈ l → o' (c.VI v).pos.toNat = some v := by
    intro l
    induction l with
    | nil => intro o P _ _ h; exact ⟨o, rfl, fun v hv => h v (by simpa using hv)⟩
    | cons a l ih =>
      intro o P hl hP h
      have ha : IsPrimary s a := hl a (by simp)
      have hr := hR.range a ha.1 ha.2
      unfold vrow at hr
      obtain ⟨o', h1, h2⟩ := ih (Function.update o (c.VI a).pos.toNat (some a)) (fun v => P v ∨ v = a) (fun v hv => hl v (by simp [hv]))
        (by rintro v (hv | rfl)
            · exact hP v hv
            · exact ha) (by
          rintro v (hv | rfl)
          · by_cases hq : (c.VI v).pos.toNat = (c.VI a).pos.toNat
            · have h3 := hR.range v (hP v hv).1 (hP v hv).2
              unfold vrow at h3
              have := hR.apart v a (hP v hv).1 (hP v hv).2 ha.1 ha.2 (show (c.VI v).pos = (c.VI a).pos by omega)
              subst this
              exact Function.update_self ..
            · rw [Function.update_of_ne hq]
              exact h v hv
          · exact Function.update_self ..)
      refine ⟨o', ?_, fun v hv => h2 v ?_⟩
      · rw [List.foldlM_cons]
        have hrd : rdDV c s.g a = some (c.VI a) := if_pos (by have := ha.2; omega)
        have hid : idx (c.VI a).pos = some (c.VI a).pos.toNat := if_pos hr.1
        simp only [Option.bind_eq_bind, hrd, hid, Option.bind_some]
        rw [if_pos (by omega), Option.bind_some]
        exact h1
      · rcases hv with hv | hv
        · exact .inl (.inl hv)
        · rcases List.mem_cons.1 hv with hv | hv
          · exact .inl (.inr hv)
          · exact .inr hv
  obtain ⟨o, h1, h2⟩ := key (verts s.g) (fun _ => none) (fun _ => False) (fun v hv => mem_verts.1 hv) (by simp) (by simp)
  refine ⟨o, h1, fun p hpN => ?_⟩
  obtain ⟨v, hv1, hv2, hv⟩ := hR.all p hpN
  refine ⟨v, ⟨hv1, hv2⟩, hv, ?_⟩
  have := h2 v (.inr (mem_verts.2 ⟨hv1, hv2⟩))
  unfold vrow at hv
  rw [hv] at this
  simpa using this

/-- Write the columns `k`, `k + 1`, … -/
def colAll : List Nat → Nat → Ctx → Ctx
  | [], _, c => c
  | i :: l, k, c => colAll l (k + 1) { c with E := fun e => if e / 2 = i then { c.E e with pos := k } else c.E e }

theorem assignCols_forward {g : Graph} {o : Coll} {r : Nat} (hu : g.inUse ≤ g.eSize) (hh : g.holes = []) :
    ∀ (l : List Nat) (fuel v k : Nat) (c : Ctx),
    forward o r fuel v = some l → (∀ x ∈ l, x ≤ g.M) → assignCols g o r fuel v k c = some (colAll l k c) := by
  intro l
  induction l with
  | nil =>
    intro fuel v k c h _
    have hv : v = 0 := by
      by_contra hv
      cases fuel with
      | zero => simp [forward, hv] at h
      | succ fuel =>
        simp only [forward, if_neg hv, Option.bind_eq_bind, Option.pure_def, Option.bind_eq_some_iff] at h
        obtain ⟨a, -, b, -, h⟩ := h
        simp at h
    subst hv
    cases fuel <;> simp [assignCols, colAll]
  | cons x l ih =>
    intro fuel v k c h hb
    cases fuel with
    | zero => unfold forward at h; split at h <;> simp at h
    | succ fuel =>
      unfold forward at h
      split at h
      · simp at h
      · rename_i hv
        simp only [Option.bind_eq_bind, Option.pure_def, Option.bind_eq_some_iff] at h
        obtain ⟨n, hn, b, hb', h⟩ := h
        simp only [Option.some.injEq, List.cons.injEq] at h
        obtain ⟨rfl, rfl⟩ := h
        have hvM := hb v (by simp)
        have htw : twin (2 * v) = 2 * v + 1 := by rw [twin_eq, if_pos (by omega)]
        have hlt : 2 * v + 1 < g.eSize := by unfold inUse at hu; rw [hh, List.length_nil] at hu; omega
        unfold assignCols
        rw [if_neg hv, htw]
        have h1 : rdDE c g (2 * v + 1) = some (c.E (2 * v + 1)) := if_pos hlt
        have h2 : ∀ d, wrDE c g (2 * v + 1) d = some { c with E := Function.update c.E (2 * v + 1) d } := fun d => if_pos hlt
        simp only [Option.bind_eq_bind, h1, h2, Option.bind_some]
        have h3 : ∀ c : Ctx, rdDE c g (2 * v) = some (c.E (2 * v)) := fun c => if_pos (by omega)
        have h4 : ∀ (c : Ctx) d, wrDE c g (2 * v) d = some { c with E := Function.update c.E (2 * v) d } := fun c d => if_pos (by omega)
        simp only [h3, h4, Option.bind_some]
        rw [hn, Option.bind_some, ih fuel n (k + 1) _ hb' (fun y hy => hb y (by simp [hy])), colAll]
        congr 3
        funext e
        by_cases e1 : e = 2 * v
        · subst e1
          rw [Function.update_self, Function.update_of_ne (by omega), if_pos (by omega)]
        · rw [Function.update_of_ne e1]
          by_cases e2 : e = 2 * v + 1
          · subst e2
            rw [Function.update_self, if_pos (by omega)]
          · rw [Function.update_of_ne e2, if_neg (by omega)]

theorem colAll_VI : ∀ (l : List Nat) (k : Nat) (c : Ctx), (colAll l k c).VI = c.VI := by
  intro l
  induction l with
  | nil => intro k c; rfl
  | cons v l ih => intro k c; exact ih _ _

theorem colAll_out : ∀ (l : List Nat) (k : Nat) (c : Ctx) (e : Nat), e / 2 ∉ l → (colAll l k c).E e = c.E e := by
  intro l
  induction l with
  | nil => intro k c x _; rfl
  | cons v l ih =>
    intro k c x hx
    rw [List.mem_cons, not_or] at hx
    rw [colAll, ih _ _ x hx.2]
    exact if_neg hx.1

theorem colAll_in : ∀ (l : List Nat) (k : Nat) (c : Ctx) (e : Nat), l.Nodup → e / 2 ∈ l →
    (colAll l k c).E e = { c.E e with pos := ((k + l.idxOf (e / 2) : Nat) : Int) } := by
  intro l
  induction l with
  | nil => intro k c x _ hx; simp at hx
  | cons v l ih =>
    intro k c x hnd hx
    rw [List.nodup_cons] at hnd
    by_cases hv : x / 2 = v
    · subst hv
      rw [colAll, colAll_out _ _ _ _ hnd.1]
      simp
    · have hx' : x / 2 ∈ l := (List.mem_cons.1 hx).resolve_left hv
      rw [colAll, ih _ _ x hnd.2 hx']
      dsimp only
      rw [if_neg hv, List.idxOf_cons_ne _ (Ne.symm hv)]
      congr 2
      omega

/-- The columns: without loops every edge gets its own. -/
theorem computeCols_spec (hp : PInv s rot) (hF : Forest s id par) (hh : s.g.holes = []) (hR : RowsFilled s.g.N c)
    (hloop : ∀ u e, e ∈ rot u → (s.g.E e).nbr ≠ u)
    (hroot : ∀ v e, IsPrimary s v → par v = 0 → e ∈ rot v → (c.VI v).pos < (c.VI (s.g.E e).nbr).pos) :
    ∃ res, computeCols s c = some res ∧
      ((res = none ∧ ∃ v, IsPrimary s v ∧ par v ≠ 0 ∧ ∀ u e, Down s rot c u e → (s.g.E e).nbr ≠ v) ∨
        ((∀ v, IsPrimary s v → par v ≠ 0 → ∃ u e, Down s rot c u e ∧ (s.g.E e).nbr = v) ∧
          ∃ L, res = some (colAll L 0 c) ∧ L.Nodup ∧ L.length = s.g.M ∧ ∀ i, i ∈ L ↔ 1 ≤ i ∧ i ≤ s.g.M)) := by
  obtain ⟨o, h1, h2⟩ := sortRows_spec hR
  have hrow : ∀ v w, IsPrimary s v → IsPrimary s w → (c.VI v).pos = (c.VI w).pos → v = w :=
    fun v w hv hw e => hR.apart v w hv.1 hv.2 hw.1 hw.2 e
  have hrange : ∀ v, IsPrimary s v → 0 ≤ (c.VI v).pos ∧ (c.VI v).pos < s.g.N := fun v hv => hR.range v hv.1 hv.2
  have hstart : SInv s rot par c { list := LC.new (if s.g.M > 0 then 1 + s.g.M else 0) } [] (Above rot c 0) := by
    have hno : ∀ e, ¬ Above rot c 0 e := by
      rintro e ⟨u, hu, h⟩
      have := (hrange u (hp.prim u e hu)).1
      omega
    refine ⟨rfl, trivial, by simp, rfl, ?_, ?_⟩
    · intro i
      constructor
      · intro h; simp at h
      · rintro ⟨u, e, -, h, -⟩
        exact absurd h (hno e)
    · intro x _ _
      exact .inl ⟨rfl, fun u e _ h => absurd h (hno e)⟩
  obtain ⟨res, h3, h4⟩ := sweepLoop_spec hp hF hh hrow hroot h2 s.g.N 0 (by omega) _ [] hstart
  unfold computeCols
  rw [h1]
  simp only [Option.bind_eq_bind, Option.bind_some]
  rw [List.range_eq_range', h3, Option.bind_some]
  rcases h4 with ⟨rfl, h4⟩ | ⟨h4, w', L', rfl, h5⟩
  · exact ⟨none, rfl, .inl ⟨rfl, h4⟩⟩
  · have hmem : ∀ i, i ∈ L' ↔ 1 ≤ i ∧ i ≤ s.g.M := by
      intro i
      rw [h5.mem]
      constructor
      · rintro ⟨u, e, hd, -, rfl⟩
        have h6 := (hp.inv.links.arc u e hd.1).1
        have h7 := hp.inv.below u e hd.1
        unfold inUse at h7
        rw [hh, List.length_nil] at h7
        omega
      · rintro ⟨hi1, hi2⟩
        have hcov := hp.inv.cover (2 * i) (by omega) (by unfold inUse; rw [hh, List.length_nil]; omega)
        rw [hh] at hcov
        simp only [List.not_mem_nil, or_false] at hcov
        obtain ⟨u, hu⟩ := hcov
        have hup : IsPrimary s u := hp.prim u _ hu
        have hnp := nbr_primary hp hu
        have htw := hp.inv.twins u _ hu
        have hne : (c.VI u).pos ≠ (c.VI (s.g.E (2 * i)).nbr).pos := fun e => hloop u _ hu (hrow u _ hup hnp e).symm
        rcases lt_or_gt_of_ne hne with hlt | hlt
        · exact ⟨u, 2 * i, ⟨hu, hlt⟩, ⟨u, hu, by have := (hrange u hup).2; omega⟩, by omega⟩
        · refine ⟨_, twin (2 * i), ⟨htw, ?_⟩, ⟨_, htw, by have := (hrange _ hnp).2; omega⟩, by rw [twin_div]; omega⟩
          rw [hp.inv.owner u _ hu]
          exact hlt
    have hlen : L'.length = s.g.M := by
      have : L'.Perm ((List.range s.g.M).map (· + 1)) := by
        refine (List.perm_ext_iff_of_nodup h5.nodup (List.Nodup.map (fun a b h => by simpa using h) List.nodup_range)).2 ?_
        intro x
        rw [hmem, List.mem_map]
        constructor
        · intro hx
          exact ⟨x - 1, List.mem_range.2 (by omega), by omega⟩
        · rintro ⟨a, ha, rfl⟩
          rw [List.mem_range] at ha
          omega
      simpa using this.length_eq
    have hfw : forward w'.list w'.head (1 + s.g.M) w'.head = some L' := by
      rw [h5.head]
      have hring := h5.ring
      have hnd := h5.nodup
      have hbd := h5.bound hp hh
      cases L' with
      | nil =>
        have : ([] : List Nat).headD 0 = 0 := rfl
        rw [this, show 1 + s.g.M = s.g.M + 1 by omega]
        rfl
      | cons a T =>
        have : (a :: T).headD 0 = a := rfl
        rw [this]
        exact forward_ok hring (fun y hy => ⟨by have := (hbd y hy).1; omega, (hbd y hy).2⟩) hnd T [] a _ rfl (by
          rw [List.length_cons] at hlen; omega)
    have has := assignCols_forward hp.inv.inUse_le hh L' (1 + s.g.M) w'.head 0 c hfw (fun x hx => ((hmem x).1 hx).2)
    dsimp only
    rw [has, Option.bind_some]
    refine ⟨_, rfl, .inr ⟨fun v hv hpv => ?_, L', rfl, h5.nodup, hlen, hmem⟩⟩
    refine h4 v hv hpv ?_ ?_
    · have := (hrange v hv).1; simpa using this
    · have := (hrange v hv).2; simpa using this

end Draw
end Verif
