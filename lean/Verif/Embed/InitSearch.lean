import Verif.Embed.InitLists
import Verif.Embed.Walk
import Verif.DFS.Forest

/-
The depth-first search of _EmbeddingInitialize.
-/
namespace Verif.Embed
open Verif Verif.Graph Verif.EGraph Verif.DFS Function

/-- The state of the search. `Bk` are the back arcs found so far. -/
structure Srch (s0 : PGraph) (rot : Nat → List Nat) (r : Rec) (order : List Nat) (stack : List Nat) (Bk : Nat → Prop)
    (cur fw kid : Nat → List Nat) (s : EGraph) : Prop where
  N : s.p.g.N = s0.g.N
  M : s.p.g.M = s0.g.M
  arcCap : s.p.g.arcCap = s0.g.arcCap
  holes : s.p.g.holes = s0.g.holes
  holesCap : s.p.g.holesCap = s0.g.holesCap
  stackCap : s.p.g.stackCap = s0.g.stackCap
  flags : s.p.g.flags = s0.g.flags
  stack : s.p.g.stack = stack
  nbr : ∀ e, (s.p.g.E e).nbr = hdOf s0 e
  idx : ∀ u, u ≤ s0.g.N → (s.p.g.V u).index = r.idx u
  vis : ∀ u, 1 ≤ u → u ≤ s0.g.N → ((s.p.g.V u).flags % 2 = 1 ↔ u ∈ order)
  par : ∀ u, 1 ≤ u → u ≤ s0.g.N → (s.p.VI u).parent = r.par u
  links : Links (base s.p.g) cur
  inCur : ∀ u e, e ∈ cur u ↔ e ∈ rot u ∧ ¬ Bk (twin e)
  cur0 : ∀ u, u ∉ order → cur u = rot u
  fwl : Lists (arcs s.p.g) (fwh s.p) s0.g.N fw
  inFw : ∀ w f, f ∈ fw w ↔ f ∈ rot w ∧ Bk (twin f)
  fws : ∀ w, (fw w).Pairwise fun f f' => r.idx (hdOf s0 f) < r.idx (hdOf s0 f')
  kl : Lists s.kids (fun x => (s.p.VI x).sortedDFSChildList) s0.g.N kid
  kN : s.kids.N = 1 + s0.g.N
  inKid : ∀ x c, c ∈ kid x ↔ ∃ u ∈ order, r.par u = x ∧ x ≠ 0 ∧ r.idx u = c
  kids : ∀ x, (kid x).Pairwise (· < ·)
  ty : ∀ u, ∀ e ∈ rot u, ∃ t, (s.p.g.E e).flags = (s0.g.E e).flags ||| t ∧ (t = 0 ∨ t = 2 ∨ t = 6 ∨ t = 10 ∨ t = 14) ∧
    (t = 14 ↔ r.ty e = 14) ∧ (t = 6 ↔ r.ty e = 6) ∧ (t = 2 → Bk e) ∧ (t = 10 → Bk (twin e))
  dead : ∀ e, (∀ u, e ∉ rot u) → s.p.g.E e = {}
  bk : ∀ e, Bk e → ∃ u, e ∈ rot u ∧ u ∈ order ∧ hdOf s0 e ∈ order ∧ r.idx (hdOf s0 e) < r.idx u ∧ r.par u ≠ hdOf s0 e
  la : ∀ e u, Bk e → e ∈ rot u → (s.p.VI u).leastAncestor ≤ r.idx (hdOf s0 e)
  la' : ∀ u ∈ order, (s.p.VI u).leastAncestor = r.idx u ∨ ∃ e, Bk e ∧ e ∈ rot u ∧ (s.p.VI u).leastAncestor = r.idx (hdOf s0 e)
  root : ∀ u ∈ order, r.par u ≠ 0 → ∃ e ∈ rot (r.par u), hdOf s0 e = u ∧ r.ty e = 14 ∧
    ∀ b, (s.p.g.V (r.idx u + s0.g.N)).link b = e
  rng : ∀ u ∈ order, 1 ≤ r.idx u
  pe : ∀ x, (s.p.VI x).pertinentEdge = 0 ∧ (s.p.VI x).pertinentRoots = 0
  roots : s.roots = LC.new (1 + s0.g.N)
  noRoot : ∀ v, s0.g.N < v → v ≤ s0.g.N + s0.g.N → (∀ u ∈ order, r.par u ≠ 0 → v ≠ r.idx u + s0.g.N) → ∀ b, (s.p.g.V v).link b = 0

variable {s0 : PGraph} {rot : Nat → List Nat} {r : Rec} {order : List Nat} {stack : List Nat} {Bk : Nat → Prop}
  {cur fw kid : Nat → List Nat} {s : EGraph}

theorem links_congr {g g' : Graph} {rot} (h : Links g rot) (hN : g'.N = g.N)
    (hA : g'.arcCap = g.arcCap) (hE : ∀ v, ∀ e ∈ rot v, ∀ b, (g'.E e).link b = (g.E e).link b)
    (hV : ∀ v b, (g'.V v).link b = (g.V v).link b) : Links g' rot := by
  have hv : g'.vSize = g.vSize := by simp [vSize, hN]
  have he : g'.eSize = g.eSize := by simp [eSize, hA]
  refine ⟨fun v b hh => by rw [hV, h.vlink v b (hv ▸ hh)], fun v b e hh => by rw [hE v e hh, h.elink v b e hh], h.nodup, ?_, ?_, h.disj⟩
  · rw [he]; exact h.arc
  · rw [hv]; exact h.vert

theorem setType_some {g g' : Graph} {e t : Nat} (h : g.setType e t = some g') :
    e < g.eSize ∧ g' = g.updE e (fun r => { r with flags := r.flags ||| t }) := by
  unfold setType at h
  by_cases he : e < g.eSize
  · simp [rdE, wrE, he] at h; exact ⟨he, by rw [← h]; rfl⟩
  · simp [rdE, he] at h

theorem setTypes_some {g g' : Graph} {e t t' : Nat} (h : g.setTypes e t t' = some g') :
    e < g.eSize ∧ twin e < g.eSize ∧ g' = { g with E := fun f => { g.E f with
      flags := (g.E f).flags ||| (if f = e then t else if f = twin e then t' else 0) } } := by
  unfold setTypes at h
  simp only [Option.bind_eq_bind, Option.bind_eq_some_iff] at h
  obtain ⟨g1, h1, h2⟩ := h
  obtain ⟨a1, rfl⟩ := setType_some h1
  obtain ⟨a2, rfl⟩ := setType_some h2
  refine ⟨a1, a2, ?_⟩
  have : ((g.updE e fun r => { r with flags := r.flags ||| t }).updE (twin e) fun r => { r with flags := r.flags ||| t' }).E =
      fun f => { g.E f with flags := (g.E f).flags ||| (if f = e then t else if f = twin e then t' else 0) } := by
    funext f
    rw [updE_E, updE_E]
    by_cases h1 : f = twin e
    · subst h1; rw [if_pos rfl, if_neg (twin_ne e), if_neg (twin_ne e), if_pos rfl]
    · rw [if_neg h1]
      by_cases h2 : f = e
      · subst h2; rw [if_pos rfl, if_pos rfl]
      · rw [if_neg h2, if_neg h2, if_neg h1, Nat.or_zero]
  calc _ = { g with E := ((g.updE e fun r => { r with flags := r.flags ||| t }).updE (twin e)
        fun r => { r with flags := r.flags ||| t' }).E } := rfl
    _ = _ := by rw [this]

/-- A back arc. -/
theorem Srch.back (hS : Start s0 rot) (h : Srch s0 rot r order stack Bk cur fw kid s) {u e : Nat} (hu : u ∈ order)
    (he : e ∈ rot u) (hw : hdOf s0 e ∈ order) (hlt : r.idx (hdOf s0 e) < r.idx u) (hp : r.par u ≠ hdOf s0 e) (hb : ¬ Bk e)
    (h14 : r.ty e ≠ 14 ∧ r.ty e ≠ 6) (h14' : r.ty (twin e) ≠ 14 ∧ r.ty (twin e) ≠ 6)
    (hmax : ∀ f, f ∈ rot (hdOf s0 e) → Bk (twin f) → r.idx (hdOf s0 f) < r.idx u)
    {p' : PGraph} (hr : backArc s.p u e = some p') :
    ∃ cur' fw', cur' u = cur u ∧ Srch s0 rot r order stack (fun f => Bk f ∨ f = e) cur' fw' kid (s.setP p') := by
  have hst := hS.static
  have hne : hdOf s0 e ≠ u := fun hh => by rw [hh] at hlt; omega
  have hte := hst.twins u e he
  have hwp := hst.prim _ _ hte
  have hup := hst.prim _ _ he
  have htb : ¬ Bk (twin e) := by
    intro hh
    obtain ⟨x, a1, _, _, a4, _⟩ := h.bk _ hh
    have := hst.disj a1 hte
    subst this
    have : hdOf s0 (twin e) = u := hst.owner u e he
    rw [this] at a4; omega
  unfold backArc at hr
  simp only [Option.bind_eq_bind] at hr; rw [Option.bind_eq_some_iff] at hr
  obtain ⟨g1, h1, hr⟩ := hr
  rw [Option.bind_eq_some_iff] at hr
  obtain ⟨g2, h2, hr⟩ := hr
  have h12 : s.p.g.setTypes e 2 10 = some g2 := by unfold setTypes; rw [h1]; exact h2
  obtain ⟨b1, b2, rfl⟩ := setTypes_some h12
  rw [Option.bind_eq_some_iff] at hr
  obtain ⟨w, h3, hr⟩ := hr
  have hw' : w = hdOf s0 e := by
    rw [getNbr_eq (by exact b1)] at h3
    rw [← Option.some.inj h3]; exact h.nbr e
  subst hw'
  rw [Option.bind_eq_some_iff] at hr
  obtain ⟨g3, h4, hr⟩ := hr
  have hl2 : Links (base { s.p.g with E := fun f => { s.p.g.E f with
      flags := (s.p.g.E f).flags ||| (if f = e then 2 else if f = twin e then 10 else 0) } }) cur :=
    h.links.congr rfl rfl (fun _ _ => rfl) (fun _ _ => rfl)
  have htc : twin e ∈ cur (hdOf s0 e) := (h.inCur _ _).2 ⟨hte, by rw [twin_twin]; exact hb⟩
  obtain ⟨c1, c2, c3, c4⟩ := unlinkTwin_spec hl2 (w := hdOf s0 e) (t := twin e) (by show _ ≤ s.p.g.N; rw [h.N]; exact hwp.2)
    (by rw [twin_twin]; exact h.nbr e) (by rw [twin_twin]; exact b1) htc h4
  rw [Option.bind_eq_some_iff] at hr
  obtain ⟨p1, h5, hr⟩ := hr
  have htf : ∀ x, twin e ∉ fw x := by
    intro x hx
    have := ((h.inFw x _).1 hx).2
    rw [twin_twin] at this; exact hb this
  have hfc : ∀ x f, f ∈ fw x → ∀ y, f ∉ cur y := fun x f hf y hy => ((h.inCur y f).1 hy).2 ((h.inFw x f).1 hf).2
  have hfl : Lists (arcs (s.p.setG g3).g) (fwh (s.p.setG g3)) s0.g.N fw := by
    refine h.fwl.congr ?_ (fun _ _ _ => rfl) ?_
    · exact c2.eSize
    · intro z y hy
      show (g3.E y).link false = _ ∧ (g3.E y).link true = _
      rw [c3 y (hfc z y hy)]
      exact ⟨rfl, rfl⟩
  have ht0 : 2 ≤ twin e ∧ twin e < s.p.g.eSize := ⟨(hS.inv.links.arc _ _ hte).1, b2⟩
  obtain ⟨d1, d2, d3, d4, d5⟩ := linkFwd_spec hfl (w := hdOf s0 e) (t := twin e) (by show _ = g3.N; rw [c2.N]; exact h.N.symm)
    hwp.1 hwp.2 (by omega) (by show _ < g3.eSize; rw [c2.eSize]; exact ht0.2) htf h5
  rw [Option.bind_eq_some_iff] at hr
  obtain ⟨i, h6, hr⟩ := hr
  rw [Option.bind_eq_some_iff] at hr
  obtain ⟨ru, h7, hr⟩ := hr
  have h7 := rdVI_some h7
  have d2' : SameBut g3 p1.g := d2
  have d3' : p1.g.V = g3.V := d3
  have d4' : ∀ x, p1.VI x = { s.p.VI x with fwdArcList := fwh p1 x } := d4
  have d5' : ∀ f, f ≠ twin e → f ∉ fw (hdOf s0 e) → p1.g.E f = g3.E f := d5
  have hi : i = r.idx (hdOf s0 e) := by
    have hv : hdOf s0 e < p1.g.vSize := by
      have : p1.g.vSize = s.p.g.vSize := by rw [d2'.vSize, c2.vSize]; rfl
      rw [this]; unfold vSize; rw [h.N]; omega
    simp only [getIndex, rdV, hv, if_true, Option.bind_eq_bind, Option.bind_some, Option.pure_def, Option.some.injEq] at h6
    rw [← h6, d3']
    have := c2.index (hdOf s0 e)
    rw [this]
    exact h.idx _ hwp.2
  have hp' : p'.g = p1.g ∧ (∀ x, p'.VI x = { s.p.VI x with fwdArcList := fwh p1 x, leastAncestor := (p'.VI x).leastAncestor }) ∧
      (∀ x, (p'.VI x).leastAncestor ≤ (s.p.VI x).leastAncestor) ∧ (p'.VI u).leastAncestor ≤ r.idx (hdOf s0 e) ∧
      (∀ x, (p'.VI x).leastAncestor = (s.p.VI x).leastAncestor ∨ x = u ∧ (p'.VI x).leastAncestor = r.idx (hdOf s0 e)) := by
    by_cases hc : i < ru.leastAncestor
    · rw [if_pos hc] at hr
      obtain rfl := wrVI_some hr
      refine ⟨rfl, fun x => ?_, fun x => ?_, ?_, fun x => ?_⟩
      · show update p1.VI u _ x = _
        by_cases hx : x = u
        · subst hx; simp only [update_self]; rw [← h7, d4']
        · simp only [update_of_ne hx]; rw [d4']
      · show (update p1.VI u _ x).leastAncestor ≤ _
        by_cases hx : x = u
        · subst hx; rw [update_self]
          rw [← h7, d4'] at hc
          exact Nat.le_of_lt hc
        · rw [update_of_ne hx, d4']
      · show (update p1.VI u _ u).leastAncestor ≤ _
        rw [update_self, hi]
      · show (update p1.VI u _ x).leastAncestor = _ ∨ _ ∧ (update p1.VI u _ x).leastAncestor = _
        by_cases hx : x = u
        · subst hx; rw [update_self, hi]; exact .inr ⟨rfl, rfl⟩
        · rw [update_of_ne hx, d4']; exact .inl rfl
    · rw [if_neg hc] at hr
      obtain rfl := Option.some.inj hr
      refine ⟨rfl, fun x => ?_, fun x => ?_, ?_, fun x => ?_⟩
      · rw [d4']
      · rw [d4']
      · rw [h7, ← hi]; omega
      · rw [d4']; exact .inl rfl
  obtain ⟨f1, f2, f3, f4, f5⟩ := hp'
  have hE : ∀ f, (p'.g.E f).nbr = (s.p.g.E f).nbr ∧ (p'.g.E f).flags = (s.p.g.E f).flags ||| (if f = e then 2 else if f = twin e then 10 else 0) := by
    intro f; rw [f1, d2'.nbr, d2'.eflags, c2.nbr, c2.eflags]; exact ⟨rfl, rfl⟩
  have hsame : ∀ f, (∀ x, f ∉ cur x) → (∀ x, f ∉ fw x) → f ≠ twin e → p'.g.E f = { s.p.g.E f with flags := (s.p.g.E f).flags ||| (if f = e then 2 else if f = twin e then 10 else 0) } := by
    intro f q1 q2 q3; rw [f1, d5' f q3 (q2 _), c3 f q1]
  refine ⟨update cur (hdOf s0 e) (without (twin e) (cur (hdOf s0 e))), update fw (hdOf s0 e) (fw (hdOf s0 e) ++ [twin e]),
    update_of_ne (Ne.symm hne) _ _, ?_⟩
  have hwm : ∀ x f, f ∈ update cur (hdOf s0 e) (without (twin e) (cur (hdOf s0 e))) x ↔ f ∈ cur x ∧ f ≠ twin e := by
    intro x f
    by_cases hx : x = hdOf s0 e
    · subst hx; rw [update_self, mem_without]
    · rw [update_of_ne hx]
      constructor
      · intro hf; refine ⟨hf, fun hh => hx ?_⟩
        subst hh
        exact h.links.disj _ _ _ hf htc
      · exact fun hf => hf.1
  have hwf : ∀ x f, f ∈ update fw (hdOf s0 e) (fw (hdOf s0 e) ++ [twin e]) x ↔ f ∈ fw x ∨ (f = twin e ∧ x = hdOf s0 e) := by
    intro x f
    by_cases hx : x = hdOf s0 e
    · subst hx; rw [update_self]; simp
    · rw [update_of_ne hx]; simp [hx]
  have hfg : p'.g = (s.setP p').p.g := rfl
  constructor
  · show p'.g.N = _; rw [f1, d2'.N, c2.N]; exact h.N
  · show p'.g.M = _; rw [f1, d2'.M, c2.M]; exact h.M
  · show p'.g.arcCap = _; rw [f1, d2'.arcCap, c2.arcCap]; exact h.arcCap
  · show p'.g.holes = _; rw [f1, d2'.holes, c2.holes]; exact h.holes
  · show p'.g.holesCap = _; rw [f1, d2'.holesCap, c2.holesCap]; exact h.holesCap
  · show p'.g.stackCap = _; rw [f1, d2'.stackCap, c2.stackCap]; exact h.stackCap
  · show p'.g.flags = _; rw [f1, d2'.flags, c2.flags]; exact h.flags
  · show p'.g.stack = _; rw [f1, d2'.stack, c2.stack]; exact h.stack
  · intro f; show (p'.g.E f).nbr = _; rw [(hE f).1]; exact h.nbr f
  · intro x hx; show (p'.g.V x).index = _; rw [f1, d2'.index, c2.index]; exact h.idx x hx
  · intro x x1 x2; show (p'.g.V x).flags % 2 = 1 ↔ _; rw [f1, d2'.vflags, c2.vflags]; exact h.vis x x1 x2
  · intro x x1 x2; show (p'.VI x).parent = _; rw [f2]; exact h.par x x1 x2
  · show Links (base p'.g) _
    rw [f1]
    refine links_congr c1 d2'.N d2'.arcCap ?_ ?_
    · intro x f hf b
      have hf := (hwm x f).1 hf
      show (p1.g.E f).link b = _
      rw [d5' f hf.2 (fun hh => hfc _ f hh x hf.1)]; rfl
    · intro v b; show (if v ≤ p1.g.N then p1.g.V v else {}).link b = (if v ≤ g3.N then g3.V v else {}).link b
      rw [d2'.N, d3']
  · intro x f; rw [hwm, h.inCur]
    constructor
    · rintro ⟨⟨q1, q2⟩, q3⟩
      exact ⟨q1, fun hh => hh.elim q2 fun hh => q3 (by rw [← hh, twin_twin])⟩
    · rintro ⟨q1, q2⟩
      exact ⟨⟨q1, fun hh => q2 (.inl hh)⟩, fun hh => q2 (.inr (by rw [hh, twin_twin]))⟩
  · intro x hx
    rw [update_of_ne (fun hh => hx (by rw [hh]; exact hw))]
    exact h.cur0 x hx
  · exact d1.congr (by show p'.g.eSize = _; rw [f1]; rfl) (fun z _ _ => by show (p'.VI z).fwdArcList = _; rw [f2])
      (fun _ _ _ => by show (arcs p'.g).next _ = _ ∧ (arcs p'.g).prev _ = _; rw [f1]; exact ⟨rfl, rfl⟩)
  · intro x f; rw [hwf, h.inFw]
    constructor
    · rintro (⟨q1, q2⟩ | ⟨rfl, rfl⟩)
      · exact ⟨q1, .inl q2⟩
      · exact ⟨hte, .inr (twin_twin e)⟩
    · rintro ⟨q1, q2 | q2⟩
      · exact .inl ⟨q1, q2⟩
      · have : f = twin e := by rw [← q2, twin_twin]
        subst this
        exact .inr ⟨rfl, hst.disj q1 hte⟩
  · intro x
    by_cases hx : x = hdOf s0 e
    · subst hx; rw [update_self, List.pairwise_append]
      refine ⟨h.fws _, by simp, ?_⟩
      intro a ha b hb'
      rw [List.mem_singleton] at hb'
      subst hb'
      have := (h.inFw _ _).1 ha
      have hh : hdOf s0 (twin e) = u := hst.owner u e he
      rw [hh]
      exact hmax a this.1 this.2
    · rw [update_of_ne hx]; exact h.fws x
  · exact h.kl.congr rfl (fun z _ _ => by show (p'.VI z).sortedDFSChildList = _; rw [f2]) (fun _ _ _ => ⟨rfl, rfl⟩)
  · exact h.kN
  · exact h.inKid
  · exact h.kids
  · intro x f hf
    show ∃ t, (p'.g.E f).flags = _ ∧ _
    rw [(hE f).2]
    obtain ⟨t, t1, t2, t3, t4, t5, t6⟩ := h.ty x f hf
    by_cases q1 : f = e
    · subst q1
      have ht : t = 0 := by
        rcases t2 with rfl | rfl | rfl | rfl | rfl
        · rfl
        · exact absurd (t5 rfl) hb
        · exact absurd (t4.1 rfl) h14.2
        · exact absurd (t6 rfl) htb
        · exact absurd (t3.1 rfl) h14.1
      subst ht
      refine ⟨2, by rw [t1, if_pos rfl, Nat.or_zero], by simp, by simpa using h14.1, by simpa using h14.2, fun _ => .inr rfl, by simp⟩
    · rw [if_neg q1]
      by_cases q2 : f = twin e
      · subst q2
        have ht : t = 0 := by
          rcases t2 with rfl | rfl | rfl | rfl | rfl
          · rfl
          · exact absurd (t5 rfl) htb
          · exact absurd (t4.1 rfl) h14'.2
          · exact absurd (t6 rfl) (by rw [twin_twin]; exact hb)
          · exact absurd (t3.1 rfl) h14'.1
        subst ht
        refine ⟨10, by rw [t1, if_pos rfl, Nat.or_zero], by simp, by simpa using h14'.1, by simpa using h14'.2, by simp, fun _ => .inr (twin_twin e)⟩
      · rw [if_neg q2, Nat.or_zero]
        exact ⟨t, t1, t2, t3, t4, fun hh => .inl (t5 hh), fun hh => .inl (t6 hh)⟩
  · intro f hf
    show p'.g.E f = _
    have q1 : f ≠ e := fun hh => hf u (hh ▸ he)
    have q2 : f ≠ twin e := fun hh => hf _ (hh ▸ hte)
    rw [hsame f (fun x hx => hf x ((h.inCur x f).1 hx).1) (fun x hx => hf x ((h.inFw x f).1 hx).1) q2, if_neg q1, if_neg q2, Nat.or_zero]
    exact h.dead f hf
  · rintro f (hf | rfl)
    · exact h.bk f hf
    · exact ⟨u, he, hu, hw, hlt, hp⟩
  · rintro f x (hf | rfl) hx
    · exact Nat.le_trans (f3 x) (h.la f x hf hx)
    · obtain rfl := hst.disj hx he
      exact f4
  · intro x hx
    show (p'.VI x).leastAncestor = _ ∨ ∃ e', _ ∧ _ ∧ (p'.VI x).leastAncestor = _
    rcases f5 x with q | ⟨rfl, q⟩
    · rw [q]
      rcases h.la' x hx with k | ⟨e', k1, k2⟩
      · exact .inl k
      · exact .inr ⟨e', .inl k1, k2⟩
    · exact .inr ⟨e, .inr rfl, he, q⟩
  · intro x hx hpx
    obtain ⟨f, q1, q2, q3, q4⟩ := h.root x hx hpx
    refine ⟨f, q1, q2, q3, fun b => ?_⟩
    show (p'.g.V _).link b = f
    rw [f1, d3', c4 _ (by show s.p.g.N < _; rw [h.N]; have := h.rng x hx; omega)]
    exact q4 b
  · exact h.rng
  · intro x; show (p'.VI x).pertinentEdge = 0 ∧ (p'.VI x).pertinentRoots = 0; rw [f2]; exact h.pe x
  · exact h.roots
  · intro x hx hx2 hx' b
    show (p'.g.V _).link b = 0
    rw [f1, d3', c4 _ (by show s.p.g.N < _; rw [h.N]; exact hx)]
    exact h.noRoot x hx hx2 hx' b

theorem setType_ok {g : Graph} {e t : Nat} (h : e < g.eSize) :
    g.setType e t = some (g.updE e (fun r => { r with flags := r.flags ||| t })) := by
  unfold setType
  simp only [rdE, wrE, h, if_true, Option.bind_eq_bind, Option.bind_some]
  rfl

theorem setTypes_ok {g : Graph} {e t t' : Nat} (h : e < g.eSize) (h' : twin e < g.eSize) :
    g.setTypes e t t' = some { g with E := fun f => { g.E f with
      flags := (g.E f).flags ||| (if f = e then t else if f = twin e then t' else 0) } } := by
  have : ∃ g', g.setTypes e t t' = some g' := by
    unfold setTypes
    rw [setType_ok h]
    simp only [Option.bind_eq_bind, Option.bind_some]
    rw [setType_ok (by exact h')]
    exact ⟨_, rfl⟩
  obtain ⟨g', hg⟩ := this
  rw [hg, (setTypes_some hg).2.2]

/-- Recording a back arc is defined. -/
theorem Srch.back_total (hS : Start s0 rot) (h : Srch s0 rot r order stack Bk cur fw kid s) {u e : Nat}
    (he : e ∈ rot u) (hb : ¬ Bk e) : ∃ p', backArc s.p u e = some p' := by
  have hst := hS.static
  have hte := hst.twins u e he
  have hwp := hst.prim _ _ hte
  have hup := hst.prim _ _ he
  have hSz : s.p.g.eSize = s0.g.eSize := by unfold eSize; rw [h.arcCap]
  have b1 : e < s.p.g.eSize := by rw [hSz]; exact (hS.inv.links.arc _ _ he).2
  have b2 : twin e < s.p.g.eSize := by rw [hSz]; exact (hS.inv.links.arc _ _ hte).2
  have h12 := setTypes_ok (t := 2) (t' := 10) b1 b2
  unfold setTypes at h12
  unfold backArc
  rw [setType_ok b1] at h12 ⊢
  simp only [Option.bind_eq_bind, Option.bind_some] at h12 ⊢
  rw [h12, Option.bind_some, getNbr_eq (by exact b1), Option.bind_some]
  have hl2 : Links (base { s.p.g with E := fun f => { s.p.g.E f with
      flags := (s.p.g.E f).flags ||| (if f = e then 2 else if f = twin e then 10 else 0) } }) cur :=
    h.links.congr rfl rfl (fun _ _ => rfl) (fun _ _ => rfl)
  have htc : twin e ∈ cur (hdOf s0 e) := (h.inCur _ _).2 ⟨hte, by rw [twin_twin]; exact hb⟩
  have hnb : (s.p.g.E e).nbr = hdOf s0 e := h.nbr e
  rw [hnb]
  obtain ⟨g3, h4⟩ := unlinkTwin_total hl2 (w := hdOf s0 e) (t := twin e) (by show _ ≤ s.p.g.N; rw [h.N]; exact hwp.2) htc
  obtain ⟨c1, c2, c3, c4⟩ := unlinkTwin_spec hl2 (w := hdOf s0 e) (t := twin e) (by show _ ≤ s.p.g.N; rw [h.N]; exact hwp.2)
    (by rw [twin_twin]; exact h.nbr e) (by rw [twin_twin]; exact b1) htc h4
  rw [h4, Option.bind_some]
  have hfc : ∀ x f, f ∈ fw x → ∀ y, f ∉ cur y := fun x f hf y hy => ((h.inCur y f).1 hy).2 ((h.inFw x f).1 hf).2
  have hfl : Lists (arcs (s.p.setG g3).g) (fwh (s.p.setG g3)) s0.g.N fw := by
    refine h.fwl.congr ?_ (fun _ _ _ => rfl) ?_
    · exact c2.eSize
    · intro z y hy
      show (g3.E y).link false = _ ∧ (g3.E y).link true = _
      rw [c3 y (hfc z y hy)]
      exact ⟨rfl, rfl⟩
  have htf : ∀ x, twin e ∉ fw x := by
    intro x hx
    have := ((h.inFw x _).1 hx).2
    rw [twin_twin] at this; exact hb this
  have ht0 : 2 ≤ twin e ∧ twin e < s.p.g.eSize := ⟨(hS.inv.links.arc _ _ hte).1, b2⟩
  obtain ⟨p1, h5⟩ := linkFwd_total hfl (w := hdOf s0 e) (t := twin e) (by show _ = g3.N; rw [c2.N]; exact h.N.symm)
    hwp.1 hwp.2 (by show _ < g3.eSize; rw [c2.eSize]; exact ht0.2)
  obtain ⟨d1, d2, d3, d4, d5⟩ := linkFwd_spec hfl (w := hdOf s0 e) (t := twin e) (by show _ = g3.N; rw [c2.N]; exact h.N.symm)
    hwp.1 hwp.2 (by omega) (by show _ < g3.eSize; rw [c2.eSize]; exact ht0.2) htf h5
  have d2' : SameBut g3 p1.g := d2
  have hN1 : p1.g.N = s0.g.N := by rw [d2'.N, c2.N]; exact h.N
  rw [h5, Option.bind_some]
  have hv : hdOf s0 e < p1.g.vSize := by unfold vSize; rw [hN1]; omega
  simp only [getIndex, rdV, hv, if_true, Option.bind_eq_bind, Option.bind_some, Option.pure_def]
  rw [rdVI_ok (by omega), Option.bind_some]
  split
  · rw [wrVI_ok _ (by omega)]; exact ⟨_, rfl⟩
  · exact ⟨_, rfl⟩

end Verif.Embed
