import Verif.Embed.Edge

/-
The state of the embedder between its steps.
-/
namespace Verif.Embed
open Verif Verif.Graph Verif.EGraph Equiv Equiv.Perm Verif.Map Function
open Verif.Props (AncEq Anc)

/-- Further facts that do not change: lowpoints, least ancestors, children in order, and the forward arcs of every vertex at
the start with their other ends. -/
structure Plan (B : Base) where
  low : Nat → Nat
  la : Nat → Nat
  kids : LC.Coll
  kh : Nat → Nat
  kid : Nat → List Nat
  fw0 : Nat → List Nat
  nb : Nat → Nat
  kl : Lists kids kh B.N kid
  kid_iff : ∀ x c, c ∈ kid x ↔ B.Child c ∧ B.par c = x
  kid_sorted : ∀ x, (kid x).Pairwise (· < ·)
  fw_range : ∀ u, ∀ f ∈ fw0 u, 1 ≤ u ∧ u ≤ B.N ∧ 1 ≤ nb f ∧ nb f ≤ B.N
  fw_anc : ∀ u, ∀ f ∈ fw0 u, Anc B.par u (nb f)
  fw_far : ∀ u, ∀ f ∈ fw0 u, B.par (nb f) ≠ u
  fw_own : ∀ u, ∀ f ∈ fw0 u, B.own f = u ∧ B.own (twin f) = nb f
  fw_sorted : ∀ u, (fw0 u).Pairwise fun f f' => nb f < nb f'
  la_le : ∀ u, ∀ f ∈ fw0 u, la (nb f) ≤ u
  low_la : ∀ x, 1 ≤ x → x ≤ B.N → low x ≤ la x
  low_kid : ∀ c, B.Child c → low (B.par c) ≤ low c
  consecutive : ∀ u w x, 1 ≤ u → x ≤ B.N → AncEq B.par u x → u ≤ w → w ≤ x → AncEq B.par u w
  fw_arc : ∀ u, ∀ f ∈ fw0 u, B.A f
  ta_arc : ∀ c, B.Child c → B.A (B.ta c)
  ta_own : ∀ c, B.Child c → B.own (B.ta c) = B.par c ∧ B.own (twin (B.ta c)) = c
  la_hit : ∀ x, 1 ≤ x → x ≤ B.N → la x = x ∨ ∃ f ∈ fw0 (la x), nb f = x
  low_hit : ∀ x, 1 ≤ x → x ≤ B.N → low x = la x ∨ ∃ c, B.Child c ∧ B.par c = x ∧ low x = low c

variable {B : Base} {Pl : Plan B} {G : Gh B.D} {s : EGraph} {fw PR : Nat → List Nat} {v : Nat}

theorem AncEq.ne_zero {par : Nat → Nat} {a b : Nat} (h : AncEq par a b) (hb : b ≠ 0) : a ≠ 0 := by
  induction h with
  | refl => exact hb
  | up h1 _ ih => exact ih h1

theorem AncEq.down {par : Nat → Nat} {a b x : Nat} (h : AncEq par a x) (h' : AncEq par b x) : AncEq par a b ∨ AncEq par b a := by
  induction h with
  | refl => exact .inr h'
  | @up x h1 h2 ih =>
    rcases h'.cases with rfl | ⟨_, h3⟩
    · exact .inl (.up h1 h2)
    · exact ih h3

/-- The child of `a` on the way to `b`. -/
theorem AncEq.child {par : Nat → Nat} {a b : Nat} (h : AncEq par a b) (hne : a ≠ b) :
    ∃ c, par c = a ∧ par c ≠ 0 ∧ AncEq par c b := by
  induction h with
  | refl => exact absurd rfl hne
  | @up b h1 h2 ih =>
    by_cases hab : a = par b
    · exact ⟨b, hab.symm, h1, .refl _⟩
    · obtain ⟨c, hc1, hc2, hc3⟩ := ih hab
      exact ⟨c, hc1, hc2, .up h1 hc3⟩

theorem Base.anc_le (B : Base) {a x : Nat} (h : AncEq B.par a x) (h1 : 1 ≤ x) (h2 : x ≤ B.N) : a ≤ x := ancEq_le B.par_lt h h1 h2

/-- The ancestors of a vertex are a chain by number. -/
theorem Base.anc_of_le (B : Base) {a b x : Nat} (h : AncEq B.par a x) (h' : AncEq B.par b x) (hx : 1 ≤ x ∧ x ≤ B.N) (hab : a ≤ b) :
    AncEq B.par a b := by
  rcases AncEq.down h h' with h1 | h1
  · exact h1
  · have ha := B.anc_le h hx.1 hx.2
    have h0 := AncEq.ne_zero h (by omega)
    have := B.anc_le h1 (by omega) (by omega)
    have : a = b := by omega
    rw [this]; exact .refl _

theorem Plan.low_desc (Pl : Plan B) {c y : Nat} (h : AncEq B.par c y) (h1 : 1 ≤ y) (h2 : y ≤ B.N) : Pl.low c ≤ Pl.la y := by
  have key : Pl.low c ≤ Pl.low y := by
    induction h with
    | refl => exact le_rfl
    | @up y hp _ ih =>
      have := B.par_lt y h1 h2
      exact (ih (by omega) (by omega)).trans (Pl.low_kid y ⟨h1, h2, hp⟩)
  exact key.trans (Pl.low_la y h1 h2)

/-- A separate component above a vertex is above the component of the vertex. -/
theorem live_anc (hg : Good B.N B.par B.α G) {c : Nat} (hc : G.Live B.N c) {x : Nat} (h : AncEq B.par c x) (h1 : 1 ≤ x) (h2 : x ≤ B.N) :
    AncEq B.par c (G.cp x) := by
  induction h with
  | refl => rw [hg.own c hc]; exact .refl _
  | @up x hp hx ih =>
    by_cases hl : G.Live B.N x
    · rw [hg.own x hl]; exact .up hp hx
    · rw [hg.joined x h1 h2 hp hl]
      have := B.par_lt x h1 h2
      exact ih (by omega) (by omega)

/-- The pertinent edge of a vertex. -/
def pe (s : EGraph) (x : Nat) : Nat := (s.p.VI x).pertinentEdge

/-- A forward arc of `u` leads to `x` or into a separate child component of `x`. -/
def Need (Pl : Plan B) (G : Gh B.D) (fw : Nat → List Nat) (u x : Nat) : Prop :=
  ∃ f ∈ fw u, Pl.nb f = x ∨ ∃ c, G.Live B.N c ∧ B.par c = x ∧ AncEq B.par c (Pl.nb f)

/-- No arc to a vertex before `v` is left to embed at `x` or below. -/
def Idle (Pl : Plan B) (G : Gh B.D) (v x : Nat) : Prop :=
  v ≤ Pl.la x ∧ ∀ c, G.Live B.N c → B.par c = x → v ≤ Pl.low c

/-- The state while vertex `v` is processed. -/
structure St (Pl : Plan B) (s : EGraph) (G : Gh B.D) (fw PR : Nat → List Nat) (v : Nat) : Prop where
  rep : Rep B s G
  good : Good B.N B.par B.α G
  fwl : Lists (arcs s.p.g) (fwh s.p) B.N fw
  wait : Waiting B G fw
  sub : ∀ u, (fw u).Sublist (Pl.fw0 u)
  nbr : ∀ u, ∀ f ∈ fw u, (s.p.g.E f).nbr = Pl.nb f
  cover : ∀ d : B.D, (∃ x, d ∈ G.L x) ∨ ∃ u, d.1 ∈ fw u ∨ twin d.1 ∈ fw u
  prl : Lists s.roots (pr s) B.N PR
  kids : s.kids = Pl.kids
  kh : ∀ x, 1 ≤ x → x ≤ B.N → (s.p.VI x).sortedDFSChildList = Pl.kh x
  low : ∀ x, 1 ≤ x → x ≤ B.N → (s.p.VI x).lowpoint = Pl.low x
  la : ∀ x, 1 ≤ x → x ≤ B.N → (s.p.VI x).leastAncestor = Pl.la x
  fp : ∀ x, 1 ≤ x → x ≤ B.N → ∃ A T, Pl.kid x = A ++ T ∧ fpc s x = T.headD 0 ∧ ∀ c ∈ A, ¬ G.Live B.N c ∨ v ≤ Pl.low c
  act : ∀ u x, u ≤ v → u < x → Need Pl G fw u x → G.Live B.N (G.cp x) ∧ x ∈ G.X (G.cp x)
  all : B.ap = true → ∀ x, 1 ≤ x → x ≤ B.N → G.Live B.N (G.cp x) → x ∈ G.X (G.cp x)
  rn : s.roots.N = 1 + B.N

theorem Idle.not_need (hsub : ∀ u, (fw u).Sublist (Pl.fw0 u)) {x u : Nat} (h : Idle Pl G v x) (hu : u < v) : ¬ Need Pl G fw u x := by
  rintro ⟨f, hf, rfl | ⟨c, hc, hcx, hcf⟩⟩
  · have := Pl.la_le u f ((hsub u).subset hf)
    have := h.1
    omega
  · have h1 := Pl.la_le u f ((hsub u).subset hf)
    have h2 := Pl.fw_range u f ((hsub u).subset hf)
    have h3 := Pl.low_desc hcf h2.2.2.1 h2.2.2.2
    have := h.2 c hc hcx
    omega

theorem Idle.mono {G' : Gh B.D} {x : Nat} (h : Idle Pl G v x) (hl : ∀ c, G'.Live B.N c → G.Live B.N c) : Idle Pl G' v x :=
  ⟨h.1, fun c hc => h.2 c (hl c hc)⟩

theorem Need.mono {G' : Gh B.D} {fw' : Nat → List Nat} {u x : Nat} (h : Need Pl G' fw' u x)
    (hl : ∀ c, G'.Live B.N c → G.Live B.N c) (hf : ∀ f ∈ fw' u, f ∈ fw u) : Need Pl G fw u x := by
  obtain ⟨f, h1, h2⟩ := h
  refine ⟨f, hf f h1, h2.imp id ?_⟩
  rintro ⟨c, a, b⟩; exact ⟨c, hl c a, b⟩

/-- No arc to `v` or to a vertex before `v` is left to embed at `x` or below, nor does `x` have to stay on the outer face as in
outerplanar embedding. -/
def Quiet (Pl : Plan B) (G : Gh B.D) (fw : Nat → List Nat) (v x : Nat) : Prop :=
  Idle Pl G v x ∧ ¬ Need Pl G fw v x ∧ B.ap = false

theorem Quiet.not_need (hsub : ∀ u, (fw u).Sublist (Pl.fw0 u)) {x u : Nat} (h : Quiet Pl G fw v x) (hu : u ≤ v) :
    ¬ Need Pl G fw u x := by
  rcases Nat.lt_or_eq_of_le hu with hu | rfl
  · exact h.1.not_need hsub hu
  · exact h.2.1

theorem Quiet.mono {G' : Gh B.D} {fw' : Nat → List Nat} {x : Nat} (h : Quiet Pl G fw v x)
    (hl : ∀ c, G'.Live B.N c → G.Live B.N c) (hf : ∀ f ∈ fw' v, f ∈ fw v) : Quiet Pl G' fw' v x :=
  ⟨h.1.mono hl, fun hn => h.2.1 (hn.mono hl hf), h.2.2⟩

/-- In outerplanar embedding no vertex is passed over. -/
theorem Quiet.none {P : List Nat} (h : ∀ x ∈ P, Quiet Pl G fw v x) (ha : B.ap = true) : P = [] := by
  refine List.eq_nil_iff_forall_not_mem.2 fun x hx => ?_
  have := (h x hx).2.2
  rw [ha] at this
  exact absurd this (by decide)

theorem off_iff {e : Nat} : Off G e ↔ ∀ h : B.A e, ∀ x, (⟨e, h⟩ : B.D) ∉ G.L x ∧ B.α ⟨e, h⟩ ∉ G.L x := by
  constructor
  · intro ho h x
    exact ⟨fun hh => (ho x).1 (mem_raw.2 ⟨h, hh⟩), fun hh => (ho x).2 (mem_raw.2 ⟨B.tw e h, hh⟩)⟩
  · intro ho x
    constructor
    · intro hh; obtain ⟨h, hh⟩ := mem_raw.1 hh; exact (ho h x).1 hh
    · intro hh
      obtain ⟨h, hh⟩ := mem_raw.1 hh
      have hA : B.A e := by have := B.tw _ h; rwa [twin_twin] at this
      exact (ho hA x).2 hh

theorem Waiting.mono {G' : Gh B.D} (h : Waiting B G fw) (hm : ∀ d x, d ∈ G'.L x → ∃ y, d ∈ G.L y) : Waiting B G' fw := by
  refine ⟨h.arc, ?_, h.pair⟩
  intro u e he
  rw [off_iff]
  intro hA x
  have := off_iff.1 (h.off u e he) hA
  constructor
  · intro hh; obtain ⟨y, hy⟩ := hm _ _ hh; exact (this y).1 hy
  · intro hh; obtain ⟨y, hy⟩ := hm _ _ hh; exact (this y).2 hy

theorem reflect_X_mem {c k x : Nat} : x ∈ (G.reflect c).X k ↔ x ∈ G.X k := by
  show x ∈ update G.X c (G.X c).reverse k ↔ _
  by_cases hk : k = c
  · subst hk; rw [update_self]; simp
  · rw [update_of_ne hk]

theorem St.reflect (h : St Pl s G fw PR v) {c : Nat} (hc : G.Live B.N c) : St Pl s (G.reflect c) fw PR v := by
  refine ⟨h.rep.reflect h.good c, h.good.reflect B.α_α, h.fwl, ?_, h.sub, h.nbr, ?_, h.prl, h.kids, h.kh, h.low, h.la, ?_, ?_, ?_, h.rn⟩
  · exact h.wait.mono fun d x hd => ⟨x, reflect_mem.1 hd⟩
  · intro d
    exact (h.cover d).imp (fun ⟨x, hx⟩ => ⟨x, reflect_mem.2 hx⟩) id
  · intro x h1 h2
    obtain ⟨A, T, e1, e2, e3⟩ := h.fp x h1 h2
    exact ⟨A, T, e1, e2, fun k hk => (e3 k hk).imp (fun hh hl => hh (reflect_live.1 hl)) id⟩
  · intro u x hu hx hn
    have := h.act u x hu hx (hn.mono (fun c hc => reflect_live.1 hc) fun _ hf => hf)
    exact ⟨reflect_live.2 this.1, reflect_X_mem.2 this.2⟩
  · intro ha x h1 h2 hl
    exact reflect_X_mem.2 (h.all ha x h1 h2 (reflect_live.1 hl))

/-- Which fields of vertex information `St` depends on. -/
structure VSt (s s' : EGraph) : Prop where
  parent : ∀ x, (s'.p.VI x).parent = (s.p.VI x).parent
  la : ∀ x, (s'.p.VI x).leastAncestor = (s.p.VI x).leastAncestor
  low : ∀ x, (s'.p.VI x).lowpoint = (s.p.VI x).lowpoint
  kids : ∀ x, (s'.p.VI x).sortedDFSChildList = (s.p.VI x).sortedDFSChildList
  fwd : ∀ x, (s'.p.VI x).fwdArcList = (s.p.VI x).fwdArcList

/-- A change of the stack and of fields `St` does not depend on. -/
theorem St.congr (h : St Pl s G fw PR v) {s' : EGraph} {PR' : Nat → List Nat} (st : List Nat) (hg : s'.p.g = { s.p.g with stack := st })
    (hk : s'.kids = s.kids) (hrn : s'.roots.N = s.roots.N) (hV : VSt s s') (hpr : Lists s'.roots (pr s') B.N PR')
    (hfp : ∀ x, 1 ≤ x → x ≤ B.N → ∃ A T, Pl.kid x = A ++ T ∧ fpc s' x = T.headD 0 ∧ ∀ c ∈ A, ¬ G.Live B.N c ∨ v ≤ Pl.low c) :
    St Pl s' G fw PR' v := by
  refine ⟨?_, h.good, ?_, h.wait, h.sub, ?_, h.cover, hpr, hk.trans h.kids, ?_, ?_, ?_, hfp, h.act, h.all, hrn.trans h.rn⟩
  · exact h.rep.congr (hg ▸ fix_stack _ _) (by rw [hg]) (by intros; rw [hg]) fun x _ _ => hV.parent x
  · refine h.fwl.congr ?_ (fun z _ _ => hV.fwd z) ?_
    · show s'.p.g.eSize = _; rw [hg]; rfl
    · intro z y _
      show (s'.p.g.E y).link false = _ ∧ (s'.p.g.E y).link true = _
      rw [hg]; exact ⟨rfl, rfl⟩
  · intro u f hf; rw [hg]; exact h.nbr u f hf
  · intro x h1 h2; rw [hV.kids]; exact h.kh x h1 h2
  · intro x h1 h2; rw [hV.low]; exact h.low x h1 h2
  · intro x h1 h2; rw [hV.la]; exact h.la x h1 h2

/-- A change of the stack only. -/
theorem St.stack (h : St Pl s G fw PR v) (st : List Nat) : St Pl (s.setG { s.p.g with stack := st }) G fw PR v :=
  h.congr st rfl rfl rfl (by constructor <;> intros <;> rfl) (h.prl.congr rfl (fun _ _ _ => rfl) fun _ _ _ => ⟨rfl, rfl⟩) h.fp

/-- The successor in a list of a collection. -/
theorem Lists.next {cl : LC.Coll} {hd : Nat → Nat} {n : Nat} {Ls : Nat → List Nat} (h : Lists cl hd n Ls) {x c : Nat} {A T : List Nat}
    (hx : 1 ≤ x ∧ x ≤ n) (hk : Ls x = A ++ c :: T) : c < cl.N ∧ (if cl.next c = hd x then 0 else cl.next c) = T.headD 0 := by
  have hcN : c < cl.N := (h.bound x c (by rw [hk]; simp)).2
  have hr := h.ring x
  have hnd := h.nodup x
  have hh := h.head x hx.1 hx.2
  refine ⟨hcN, ?_⟩
  rw [hk] at hr hnd hh
  rw [LC.ring_rotate, List.cons_append, LC.ring_iff] at hr
  cases T with
  | nil =>
    have : cl.next c = hd x := by
      cases A with
      | nil => simp [LC.R] at hr; rw [hr.1, hh]; rfl
      | cons a A =>
        simp only [List.nil_append, List.cons_append, List.isChain_cons_cons] at hr
        rw [hr.1.1, hh]; rfl
    rw [if_pos this]; rfl
  | cons b T =>
    simp only [List.cons_append, List.isChain_cons_cons] at hr
    have hn : cl.next c = b := hr.1.1
    rw [if_neg, hn]; rfl
    rw [hn, hh]
    cases A with
    | nil =>
      simp only [List.nil_append, List.headD_cons]
      rintro rfl; simp at hnd
    | cons a A =>
      simp only [List.cons_append, List.headD_cons]
      rintro rfl; simp at hnd

/-- The next child in the list of children. -/
theorem Plan.next (Pl : Plan B) {x c : Nat} {A T : List Nat} (hx : 1 ≤ x ∧ x ≤ B.N) (hk : Pl.kid x = A ++ c :: T) :
    LC.getNext Pl.kids (Pl.kh x) c = some (T.headD 0) := by
  obtain ⟨hcN, h⟩ := Pl.kl.next hx hk
  unfold LC.getNext
  rw [LC.rdNext_eq hcN]
  simp only [Option.bind_eq_bind, Option.bind_some]
  by_cases hq : Pl.kids.next c = Pl.kh x
  · rw [if_pos hq] at h; rw [if_pos hq, ← h]; rfl
  · rw [if_neg hq] at h; rw [if_neg hq, ← h]

theorem headD_ne {T : List Nat} (h0 : 0 ∉ T) (h : T.headD 0 ≠ 0) : ∃ c T', T = c :: T' := by
  cases T with
  | nil => simp at h
  | cons c T => exact ⟨c, T, rfl⟩

/-- Only the future pertinent child of `w` differs. -/
structure OnlyFpc (s s' : EGraph) : Prop where
  g : s'.p.g = s.p.g
  ext : s'.ext = s.ext
  kids : s'.kids = s.kids
  roots : s'.roots = s.roots
  vk : VKeep s.p s'.p
  pr : ∀ x, pr s' x = pr s x

theorem OnlyFpc.refl (s : EGraph) : OnlyFpc s s := ⟨rfl, rfl, rfl, rfl, VKeep.refl _, fun _ => rfl⟩
theorem OnlyFpc.trans {a b c : EGraph} (h : OnlyFpc a b) (h' : OnlyFpc b c) : OnlyFpc a c :=
  ⟨h'.g.trans h.g, h'.ext.trans h.ext, h'.kids.trans h.kids, h'.roots.trans h.roots, h.vk.trans h'.vk, fun x => (h'.pr x).trans (h.pr x)⟩

theorem live_iff_arc (r : Rep B s G) {c : Nat} (h1 : 1 ≤ c) (h2 : c ≤ B.N) : (s.p.g.V (c + B.N)).link false = 0 ↔ ¬ G.Live B.N c := by
  have hv : c + B.N < s.p.g.vSize := by rw [r.vSize]; omega
  rw [r.links.vlink (c + B.N) false hv, endIn_zero_iff (r.links.zero_not_mem _), raw_nil]
  unfold Gh.Live
  constructor
  · intro hh hl; exact hl.2 hh
  · intro hh; by_contra hl; exact hh ⟨h1, hl⟩

/-- The future pertinent child of `w` is up to date. -/
def Fresh (Pl : Plan B) (s : EGraph) (G : Gh B.D) (v w : Nat) : Prop :=
  fpc s w ≠ 0 → Pl.low (fpc s w) < v ∧ G.Live B.N (fpc s w) ∧ B.par (fpc s w) = w

theorem updateFuture_run {w : Nat} (hw : 1 ≤ w ∧ w ≤ B.N) : ∀ (fuel : Nat) (s : EGraph) (A T : List Nat), St Pl s G fw PR v →
    Pl.kid w = A ++ T → fpc s w = T.headD 0 → (∀ c ∈ A, ¬ G.Live B.N c ∨ v ≤ Pl.low c) → T.length < fuel →
    ∃ s', s.updateFuture w v fuel = some s' ∧ St Pl s' G fw PR v ∧ OnlyFpc s s' ∧
      Fresh Pl s' G v w ∧ ∀ x, x ≠ w → fpc s' x = fpc s x := by
  intro fuel
  induction fuel with
  | zero => intro s A T _ _ _ _ hl; omega
  | succ fuel ih =>
    intro s A T h hAT hf hA hl
    generalize he : s.updateFuture w v (fuel + 1) = o
    have hwv : w < 1 + s.p.g.N := by rw [h.rep.N]; omega
    have hrd : s.p.rdVI w = some (s.p.VI w) := if_pos hwv
    rw [EGraph.updateFuture, hrd] at he
    simp only [Option.bind_eq_bind, Option.bind_some] at he
    by_cases hc0 : (s.p.VI w).futurePertinentChild = 0
    · rw [if_pos hc0] at he
      simp only [pure] at he
      subst he
      exact ⟨s, rfl, h, OnlyFpc.refl _, fun hh => absurd hc0 hh, fun _ _ => rfl⟩
    · rw [if_neg hc0] at he
      cases T with
      | nil => exact absurd hf hc0
      | cons c T =>
        have hfc : (s.p.VI w).futurePertinentChild = c := hf
        obtain ⟨hch, hcw⟩ := (Pl.kid_iff w c).1 (by rw [hAT]; simp)
        have hlow : s.p.getLowpoint c = some (Pl.low c) := by
          unfold PGraph.getLowpoint
          have : s.p.rdVI c = some (s.p.VI c) := if_pos (by rw [h.rep.N]; have := hch.2.1; omega)
          rw [this]
          simp only [Option.bind_eq_bind, Option.bind_some, pure]
          rw [h.low c hch.1 hch.2.1]
        have hRv : c + s.p.g.N < s.p.g.vSize := by
          rw [h.rep.N, h.rep.vSize]; have := hch.2.1; omega
        rw [hfc, hlow, getArc_eq hRv] at he
        simp only [Option.bind_some] at he
        rw [h.rep.N] at he
        by_cases hcond : v ≤ Pl.low c ∨ (s.p.g.V (c + B.N)).link false = 0
        · rw [if_pos hcond] at he
          have hnext : s.nextChild w c = some (T.headD 0) := by
            unfold EGraph.nextChild
            rw [hrd]
            simp only [Option.bind_eq_bind, Option.bind_some]
            rw [h.kids, h.kh w hw.1 hw.2]
            exact Pl.next hw hAT
          rw [hnext] at he
          simp only [Option.bind_some] at he
          have hwr : s.p.wrVI w { s.p.VI w with futurePertinentChild := T.headD 0 } =
            some { s.p with VI := update s.p.VI w { s.p.VI w with futurePertinentChild := T.headD 0 } } := if_pos hwv
          rw [hwr] at he
          simp only [Option.bind_some] at he
          have hof : OnlyFpc s (s.setP { s.p with VI := update s.p.VI w { s.p.VI w with futurePertinentChild := T.headD 0 } }) := by
            refine ⟨rfl, rfl, rfl, rfl, ?_, ?_⟩
            · constructor <;> intro x <;> (by_cases hx : x = w; · subst hx; simp [EGraph.setP]) <;>
                simp [EGraph.setP, update_of_ne hx]
            · intro x
              unfold Embed.pr
              by_cases hx : x = w
              · subst hx; simp [EGraph.setP]
              · simp [EGraph.setP, update_of_ne hx]
          have hst : St Pl (s.setP { s.p with VI := update s.p.VI w { s.p.VI w with futurePertinentChild := T.headD 0 } }) G fw PR v := by
            refine h.congr s.p.g.stack rfl rfl rfl ⟨hof.vk.parent, hof.vk.la, hof.vk.low, hof.vk.kids, hof.vk.fwd⟩
              (h.prl.congr rfl (fun z _ _ => hof.pr z) fun _ _ _ => ⟨rfl, rfl⟩) ?_
            intro x h1 h2
            by_cases hx : x = w
            · subst hx
              refine ⟨A ++ [c], T, by rw [hAT]; simp, by unfold fpc; simp [EGraph.setP], ?_⟩
              intro k hk
              rcases List.mem_append.1 hk with hk | hk
              · exact hA k hk
              · simp at hk; subst hk
                rcases hcond with hh | hh
                · exact .inr hh
                · exact .inl ((live_iff_arc h.rep hch.1 hch.2.1).1 hh)
            · obtain ⟨A', T', e1, e2, e3⟩ := h.fp x h1 h2
              refine ⟨A', T', e1, ?_, e3⟩
              rw [← e2]; unfold fpc; simp [EGraph.setP, update_of_ne hx]
          obtain ⟨s', i0, i1, i2, i3, i4⟩ := ih _ (A ++ [c]) T hst (by rw [hAT]; simp) (by unfold fpc; simp [EGraph.setP])
            (by
              intro k hk
              rcases List.mem_append.1 hk with hk | hk
              · exact hA k hk
              · simp at hk; subst hk
                rcases hcond with hh | hh
                · exact .inr hh
                · exact .inl ((live_iff_arc h.rep hch.1 hch.2.1).1 hh))
            (by simp at hl; omega)
          refine ⟨s', he.symm.trans i0, i1, hof.trans i2, i3, fun x hx => ?_⟩
          rw [i4 x hx]; unfold fpc; simp [EGraph.setP, update_of_ne hx]
        · rw [if_neg hcond] at he
          simp only [pure] at he
          subst he
          refine ⟨s, rfl, h, OnlyFpc.refl _, fun _ => ?_, fun _ _ => rfl⟩
          have : fpc s w = c := hfc
          rw [this]
          refine ⟨by omega, ?_, hcw⟩
          by_contra hh
          exact hcond (.inr ((live_iff_arc h.rep hch.1 hch.2.1).2 hh))

theorem kid_length (Pl : Plan B) (w : Nat) : (Pl.kid w).length ≤ B.N := by
  have h1 : (Pl.kid w).Subperm (List.range' 1 B.N) := by
    refine List.subperm_of_subset (Pl.kl.nodup w) ?_
    intro c hc
    have := ((Pl.kid_iff w c).1 hc).1
    rw [List.mem_range'_1]
    have h1 := this.1
    have h2 := this.2.1
    omega
  simpa using h1.length_le

/-- The advance of the future pertinent child. -/
theorem updateFuture_spec {w : Nat} (hw : 1 ≤ w ∧ w ≤ B.N) (h : St Pl s G fw PR v) : ∃ s', s.updateFuture w v (s.p.g.N + 2) = some s' ∧
    St Pl s' G fw PR v ∧ OnlyFpc s s' ∧ Fresh Pl s' G v w ∧ ∀ x, x ≠ w → fpc s' x = fpc s x := by
  obtain ⟨A, T, hAT, hf, hA⟩ := h.fp w hw.1 hw.2
  refine updateFuture_run hw _ s A T h hAT hf hA ?_
  have := kid_length Pl w
  rw [hAT, List.length_append] at this
  rw [h.rep.N]; omega

/-- The test for future pertinence can be made. -/
theorem futurePertinent_total {w : Nat} (hw : 1 ≤ w ∧ w ≤ B.N) (h : St Pl s G fw PR v) : ∃ b, s.futurePertinent w v = some b := by
  unfold EGraph.futurePertinent
  have hrd : s.p.rdVI w = some (s.p.VI w) := if_pos (by rw [h.rep.N]; omega)
  rw [hrd]
  simp only [Option.bind_eq_bind, Option.bind_some]
  split
  · exact ⟨_, rfl⟩
  · split
    · next hc =>
      obtain ⟨A, T, hAT, hf, _⟩ := h.fp w hw.1 hw.2
      have hf : (s.p.VI w).futurePertinentChild = _ := hf
      cases T with
      | nil => exact absurd hf hc
      | cons c T =>
        have hch := ((Pl.kid_iff w c).1 (by rw [hAT]; simp)).1
        unfold PGraph.getLowpoint
        rw [hf]
        have : s.p.rdVI c = some (s.p.VI c) := if_pos (by rw [h.rep.N]; have := hch.2.1; omega)
        rw [List.headD_cons, this]; exact ⟨_, rfl⟩
    · exact ⟨_, rfl⟩

theorem pertinent_total {w : Nat} (hw : 1 ≤ w ∧ w ≤ B.N) (h : St Pl s G fw PR v) : ∃ b, s.pertinent w = some b := by
  unfold EGraph.pertinent
  have hrd : s.p.rdVI w = some (s.p.VI w) := if_pos (by rw [h.rep.N]; omega)
  rw [hrd]; exact ⟨_, rfl⟩

/-- A vertex that is not future pertinent is idle. -/
theorem idle_of_test {w : Nat} (hw : 1 ≤ w ∧ w ≤ B.N) (h : St Pl s G fw PR v)
    (hf : Fresh Pl s G v w) (ht : s.futurePertinent w v = some false) : Idle Pl G v w := by
  unfold EGraph.futurePertinent at ht
  have hrd : s.p.rdVI w = some (s.p.VI w) := if_pos (by rw [h.rep.N]; omega)
  rw [hrd] at ht
  simp only [Option.bind_eq_bind, Option.bind_some] at ht
  split at ht
  · simp at ht
  · next hla =>
    rw [h.la w hw.1 hw.2] at hla
    split at ht
    · next hc =>
      exfalso
      obtain ⟨h1, hl, _⟩ := hf hc
      have h2 : 1 ≤ fpc s w := hl.1
      have h3 := (h.good.root _ hl).1
      have hlow : s.p.getLowpoint (s.p.VI w).futurePertinentChild = some (Pl.low (fpc s w)) := by
        unfold PGraph.getLowpoint
        have : s.p.rdVI (fpc s w) = some (s.p.VI (fpc s w)) := if_pos (by rw [h.rep.N]; omega)
        unfold fpc at this ⊢
        rw [this]
        simp only [Option.bind_eq_bind, Option.bind_some, pure]
        exact congrArg some (h.low _ h2 h3)
      rw [hlow] at ht
      simp at ht
      omega
    · next hc =>
      have hc0 : fpc s w = 0 := by unfold fpc; omega
      refine ⟨by omega, ?_⟩
      intro c hlc hcw
      obtain ⟨A, T, hAT, hfp, hA⟩ := h.fp w hw.1 hw.2
      have hch : c ∈ Pl.kid w := (Pl.kid_iff w c).2 ⟨⟨hlc.1, (h.good.root c hlc).1, (h.good.root c hlc).2.1⟩, hcw⟩
      have hT : T = [] := by
        cases T with
        | nil => rfl
        | cons a T =>
          rw [hc0] at hfp
          have : a = 0 := hfp.symm
          have := (Pl.kl.bound w a (by rw [hAT]; simp)).1
          omega
      rw [hAT, hT, List.append_nil] at hch
      rcases hA c hch with hh | hh
      · exact absurd hlc hh
      · exact hh

end Verif.Embed
