import Verif.Embed.Obstacle

/-
How a walk down changes the components it finds, and what it must have met when it can not go on.
-/
namespace Verif.Embed
open Verif Verif.Graph Verif.EGraph Equiv Equiv.Perm Verif.Map Function
open Verif.Props (AncEq Anc)

variable {B : Base} {Pl : Plan B} {G G' G'' : Gh B.D} {s : EGraph} {fw fw' fw'' PR PR' PR'' : Nat → List Nat} {v c0 c : Nat}

/-- The vertices linked around a component are on a cycle through its parent. -/
def Rim (G : Gh B.D) (c : Nat) : Prop :=
  ∃ F : List Nat, F.Nodup ∧ (G.X c).Sublist F ∧ (∀ p ∈ F, 1 ≤ p ∧ p ≤ B.N ∧ G.cp p = c) ∧ List.IsChain B.Adj (B.par c :: F ++ [B.par c])

theorem chain_rev {a : Nat} {F : List Nat} (h : List.IsChain B.Adj (a :: F ++ [a])) : List.IsChain B.Adj (a :: F.reverse ++ [a]) := by
  have e : a :: F.reverse ++ [a] = (a :: F ++ [a]).reverse := by simp
  rw [e, List.isChain_reverse]
  exact h.imp fun _ _ k => k.symm

theorem Rim.next (h : Rim G c) (hcp : ∀ x, G.cp x = c → G'.cp x = c)
    (hX : (G'.X c).Sublist (G.X c) ∨ (G'.X c).Sublist (G.X c).reverse) : Rim G' c := by
  obtain ⟨F, h1, h2, h3, h4⟩ := h
  rcases hX with hX | hX
  · exact ⟨F, h1, hX.trans h2, fun p hp => ⟨(h3 p hp).1, (h3 p hp).2.1, hcp p (h3 p hp).2.2⟩, h4⟩
  · refine ⟨F.reverse, List.nodup_reverse.2 h1, hX.trans h2.reverse, ?_, chain_rev h4⟩
    intro p hp
    rw [List.mem_reverse] at hp
    exact ⟨(h3 p hp).1, (h3 p hp).2.1, hcp p (h3 p hp).2.2⟩

/-- An edge to before `v` is left to embed at `z` or below. -/
def Act (Pl : Plan B) (G : Gh B.D) (fw : Nat → List Nat) (v z : Nat) : Prop := ∃ u, u < v ∧ Need Pl G fw u z

/-- The ends of the list of linked vertices: both have something left to embed, or only one vertex has and it is an end. -/
def EndsOK (Pl : Plan B) (G : Gh B.D) (fw : Nat → List Nat) (v k : Nat) : Prop :=
  (∀ a, (G.X k).head? = some a ∨ (G.X k).getLast? = some a → Act Pl G fw v a) ∨
    ∃ a, ((G.X k).head? = some a ∨ (G.X k).getLast? = some a) ∧ ∀ z ∈ G.X k, Act Pl G fw v z → z = a

theorem EndsOK.congr {fw' : Nat → List Nat} {k : Nat} (h : EndsOK Pl G fw v k) (hX : G'.X k = G.X k ∨ G'.X k = (G.X k).reverse)
    (ha : ∀ z ∈ G.X k, Act Pl G' fw' v z ↔ Act Pl G fw v z) : EndsOK Pl G' fw' v k := by
  have e : ∀ a, ((G'.X k).head? = some a ∨ (G'.X k).getLast? = some a) ↔ ((G.X k).head? = some a ∨ (G.X k).getLast? = some a) := by
    intro a
    rcases hX with hX | hX
    · rw [hX]
    · rw [hX, List.head?_reverse, List.getLast?_reverse]; exact or_comm
  have em : ∀ a, a ∈ G'.X k ↔ a ∈ G.X k := by
    intro a; rcases hX with hX | hX <;> rw [hX]; simp
  have ee : ∀ a, ((G.X k).head? = some a ∨ (G.X k).getLast? = some a) → a ∈ G.X k := by
    rintro a (h | h)
    · exact List.mem_of_head? h
    · exact List.mem_of_getLast? h
  rcases h with h | ⟨a, h1, h2⟩
  · left; intro a ha'
    rw [e] at ha'
    exact (ha a (ee a ha')).2 (h a ha')
  · right
    refine ⟨a, (e a).2 h1, fun z hz hz' => ?_⟩
    rw [em] at hz
    exact h2 z hz ((ha z hz).1 hz')

/-- What a walk down of the component of `c0` may change. -/
structure Evo (Pl : Plan B) (c0 v : Nat) (G : Gh B.D) (fw PR : Nat → List Nat) (G' : Gh B.D) (fw' PR' : Nat → List Nat) : Prop where
  live : ∀ k, G'.Live B.N k → G.Live B.N k
  X : ∀ k, G'.Live B.N k → k ≠ c0 → G'.X k = G.X k ∨ G'.X k = (G.X k).reverse
  cp : ∀ x, G'.Live B.N (G.cp x) → G'.cp x = G.cp x
  dead : ∀ k, G.Live B.N k → G'.Live B.N k ∨ (G'.cp (B.par k) = c0 ∧ k ∈ PR (B.par k))
  pr : ∀ z, (PR' z).Sublist (PR z)
  fwu : ∀ u, u ≠ v → fw' u = fw u
  fwv : ∀ f ∈ fw' v, f ∈ fw v
  fwe : ∀ f ∈ fw v, f ∈ fw' v ∨ G'.cp (Pl.nb f) = c0

theorem Evo.refl (G : Gh B.D) (fw PR : Nat → List Nat) : Evo Pl c0 v G fw PR G fw PR :=
  ⟨fun _ h => h, fun _ _ _ => .inl rfl, fun _ _ => rfl, fun _ h => .inl h, fun _ => List.Sublist.refl _, fun _ _ => rfl,
    fun _ h => h, fun _ h => .inl h⟩

theorem Evo.sub (e : Evo Pl c0 v G fw PR G' fw' PR') (u : Nat) : ∀ f ∈ fw' u, f ∈ fw u := by
  intro f hf
  by_cases hu : u = v
  · subst hu; exact e.fwv f hf
  · rw [e.fwu u hu] at hf; exact hf

theorem Evo.trans (e : Evo Pl c0 v G fw PR G' fw' PR') (e' : Evo Pl c0 v G' fw' PR' G'' fw'' PR'') (hl : G''.Live B.N c0) :
    Evo Pl c0 v G fw PR G'' fw'' PR'' := by
  have hc : ∀ x, G'.cp x = c0 → G''.cp x = c0 := fun x hx => by
    rw [← hx]; exact e'.cp x (by rw [hx]; exact hl)
  refine ⟨fun k h => e.live k (e'.live k h), ?_, ?_, ?_, fun z => (e'.pr z).trans (e.pr z), ?_, fun f hf => e.fwv f (e'.fwv f hf), ?_⟩
  · intro k hk hne
    rcases e'.X k hk hne with h1 | h1 <;> rcases e.X k (e'.live k hk) hne with h2 | h2
    · exact .inl (h1.trans h2)
    · exact .inr (h1.trans h2)
    · exact .inr (by rw [h1, h2])
    · exact .inl (by rw [h1, h2, List.reverse_reverse])
  · intro x hx
    have h1 := e.cp x (e'.live _ hx)
    rw [e'.cp x (by rw [h1]; exact hx), h1]
  · intro k hk
    rcases e.dead k hk with h1 | ⟨h1, h2⟩
    · rcases e'.dead k h1 with h3 | ⟨h3, h4⟩
      · exact .inl h3
      · exact .inr ⟨h3, (e.pr _).subset h4⟩
    · exact .inr ⟨hc _ h1, h2⟩
  · intro u hu; rw [e'.fwu u hu, e.fwu u hu]
  · intro f hf
    rcases e.fwe f hf with h1 | h1
    · exact e'.fwe f h1
    · exact .inr (hc _ h1)

theorem Evo.rim (e : Evo Pl c0 v G fw PR G' fw' PR') {k : Nat} (hk : G'.Live B.N k) (hne : k ≠ c0) (hr : Rim G k) : Rim G' k := by
  refine hr.next (fun x hx => ?_) ?_
  · rw [← hx]; exact e.cp x (by rw [hx]; exact hk)
  · rcases e.X k hk hne with h | h <;> rw [h]
    · exact .inl (List.Sublist.refl _)
    · exact .inr (List.Sublist.refl _)

/-- A separate component below is not above a vertex of the component of `c0`. -/
theorem sep (hg : Good B.N B.par B.α G) (h0 : G.Live B.N c0) (hv : B.par c0 = v) {k z : Nat} (hk : G.Live B.N k) (hkv : v < B.par k)
    (hz : 1 ≤ z ∧ z ≤ B.N) (hcp : G.cp z = c0) : ¬ AncEq B.par k z := by
  intro ha
  have h1 := live_anc hg hk ha hz.1 hz.2
  rw [hcp] at h1
  have h2 := hg.root c0 h0
  have h3 := B.par_lt k hk.1 (hg.root k hk).1
  have h4 := B.par_lt c0 h0.1 h2.1
  rcases h1.cases with rfl | ⟨h5, h6⟩
  · omega
  · have := B.anc_le h6 (by omega) (by omega)
    omega

/-- At a vertex of a component left alone the same is left to embed. -/
theorem Evo.need (e : Evo Pl c0 v G fw PR G' fw' PR') (hg : Good B.N B.par B.α G') (h0 : G'.Live B.N c0) (hv : B.par c0 = v) {k p u : Nat}
    (hf : ∀ f ∈ fw v, 1 ≤ Pl.nb f ∧ Pl.nb f ≤ B.N)
    (hk : G'.Live B.N k) (hne : k ≠ c0) (hp : G.cp p = k) (hvp : v < p) : Need Pl G' fw' u p ↔ Need Pl G fw u p := by
  have hcp : G'.cp p = k := by rw [← hp]; exact e.cp p (by rw [hp]; exact hk)
  refine ⟨fun h => h.mono e.live (e.sub u), ?_⟩
  rintro ⟨f, h1, h2⟩
  have h3 : Pl.nb f = p ∨ ∃ c, G'.Live B.N c ∧ B.par c = p ∧ AncEq B.par c (Pl.nb f) := by
    refine h2.imp id ?_
    rintro ⟨c, q1, q2, q3⟩
    refine ⟨c, (e.dead c q1).resolve_right ?_, q2, q3⟩
    rintro ⟨q4, _⟩
    rw [q2, hcp] at q4; exact hne q4
  refine ⟨f, ?_, h3⟩
  by_cases hu : u = v
  · subst hu
    refine (e.fwe f h1).resolve_right ?_
    intro h4
    rcases h3 with rfl | ⟨c, q1, q2, q3⟩
    · rw [hcp] at h4; exact hne h4
    · exact sep hg h0 hv q1 (by rw [q2]; exact hvp) (hf f h1) h4 q3
  · rw [e.fwu u hu]; exact h1

/-- The vertex of component `c` above which or at which `y` is. -/
theorem find_hang (hg : Good B.N B.par B.α G) (hc : G.Live B.N c) {y : Nat} (h : AncEq B.par c y) (hy : 1 ≤ y ∧ y ≤ B.N) :
    ∃ w, (1 ≤ w ∧ w ≤ B.N) ∧ G.cp w = c ∧ (y = w ∨ ∃ k, G.Live B.N k ∧ B.par k = w ∧ AncEq B.par k y) := by
  induction h with
  | refl => exact ⟨c, hy, hg.own c hc, .inl rfl⟩
  | @up y hp hx ih =>
    have hr := up_range B hy hp
    obtain ⟨w, h1, h2, h3⟩ := ih hr
    rcases h3 with h3 | ⟨k, k1, k2, k3⟩
    · by_cases hl : G.Live B.N y
      · exact ⟨w, h1, h2, .inr ⟨y, hl, h3, .refl _⟩⟩
      · exact ⟨y, hy, by rw [hg.joined y hy.1 hy.2 hp hl, h3, h2], .inl rfl⟩
    · exact ⟨w, h1, h2, .inr ⟨k, k1, k2, .up hp k3⟩⟩

/-- An edge left to embed below `c` leads to a vertex linked around `c` or below one. -/
theorem find_need (hg : Good B.N B.par B.α G)
    (hact : ∀ u x, u ≤ v → u < x → Need Pl G fw u x → G.Live B.N (G.cp x) ∧ x ∈ G.X (G.cp x)) (hc : G.Live B.N c) (hv : v ≤ B.par c)
    {f : Nat} (hf : f ∈ fw v) (hr : 1 ≤ Pl.nb f ∧ Pl.nb f ≤ B.N) (h : AncEq B.par c (Pl.nb f)) : ∃ w ∈ G.X c, Need Pl G fw v w ∧ v < w := by
  obtain ⟨w, h1, h2, h3⟩ := find_hang hg hc h hr
  have hn : Need Pl G fw v w := ⟨f, hf, h3⟩
  have hlt : v < w := by
    have q1 := hg.anc B.par_lt w h1.1 h1.2
    rw [h2] at q1
    have q2 := B.anc_le q1 h1.1 h1.2
    have q3 := B.par_lt c hc.1 (hg.root c hc).1
    omega
  have := hact v w le_rfl hlt hn
  rw [h2] at this
  exact ⟨w, this.2, hn, hlt⟩

theorem low_least (Pl : Plan B) : ∀ (n x : Nat), B.N - x ≤ n → 1 ≤ x ∧ x ≤ B.N → ∃ y, B.Sub x y ∧ Pl.low x = Pl.la y := by
  intro n
  induction n with
  | zero =>
    intro x hn hx
    rcases Pl.low_hit x hx.1 hx.2 with h | ⟨k, h1, h2, _⟩
    · exact ⟨x, ⟨hx, .refl _⟩, h⟩
    · have := B.par_lt k h1.1 h1.2.1
      have := h1.2.1
      omega
  | succ n ih =>
    intro x hn hx
    rcases Pl.low_hit x hx.1 hx.2 with h | ⟨k, h1, h2, h3⟩
    · exact ⟨x, ⟨hx, .refl _⟩, h⟩
    · have := B.par_lt k h1.1 h1.2.1
      have h4 := h1.2.1
      obtain ⟨y, h5, h6⟩ := ih k (by omega) ⟨h1.1, h1.2.1⟩
      refine ⟨y, ⟨h5.1, ?_⟩, h3.trans h6⟩
      refine AncEq.trans (b := k) ?_ h5.2
      refine .up h1.2.2 ?_
      rw [h2]; exact .refl _

theorem low_arc (Pl : Plan B) {k : Nat} (hk : 1 ≤ k ∧ k ≤ B.N) (hv : v < k) (hl : Pl.low k < v) :
    ∃ u, u < v ∧ ∃ f ∈ Pl.fw0 u, B.Sub k (Pl.nb f) := by
  obtain ⟨y, h1, h2⟩ := low_least Pl _ k le_rfl hk
  have := B.anc_le h1.2 h1.1.1 h1.1.2
  rcases Pl.la_hit y h1.1.1 h1.1.2 with h3 | ⟨f, h3, h4⟩
  · omega
  · exact ⟨_, by omega, f, h3, by rw [h4]; exact h1⟩

theorem low_toU (Pl : Plan B) {k : Nat} (hk : 1 ≤ k ∧ k ≤ B.N) (hv : v < k) (hl : Pl.low k < v) : ToU Pl v (B.Sub k) :=
  .inl (low_arc Pl hk hv hl)

theorem hang_anc (hg : Good B.N B.par B.α G) {p q : Nat} (h : Hang G p q) : AncEq B.par p q := by
  obtain ⟨hr, rfl | ⟨k, h1, h2, h3⟩⟩ := h
  · exact .refl _
  · refine AncEq.trans (b := k) (.up (hg.root k h1).2.1 ?_) h3
    rw [h2]; exact .refl _

theorem Need.toV (hsub : ∀ u, (fw u).Sublist (Pl.fw0 u)) {w : Nat} (h : Need Pl G fw v w) : ToV Pl v (Hang G w) := by
  obtain ⟨f, h1, h2⟩ := h
  have h3 := (hsub v).subset h1
  have h4 := Pl.fw_range v f h3
  exact ⟨f, h3, h4.2.2, h2⟩

theorem Act.toU (hsub : ∀ u, (fw u).Sublist (Pl.fw0 u)) {w : Nat} (h : Act Pl G fw v w) : ToU Pl v (Hang G w) := by
  obtain ⟨u, h0, f, h1, h2⟩ := h
  have h3 := (hsub u).subset h1
  have h4 := Pl.fw_range u f h3
  exact .inl ⟨u, h0, f, h3, h4.2.2, h2⟩

/-- An edge to before `v` is left to embed at `z` or below, or there is the additional vertex. -/
def Hot (Pl : Plan B) (G : Gh B.D) (fw : Nat → List Nat) (v z : Nat) : Prop :=
  Act Pl G fw v z ∨ (B.ap = true ∧ 1 ≤ z ∧ z ≤ B.N)

theorem Hot.toU (hsub : ∀ u, (fw u).Sublist (Pl.fw0 u)) {w : Nat} (h : Hot Pl G fw v w) : ToU Pl v (Hang G w) := by
  rcases h with h | ⟨h0, h1⟩
  · exact h.toU hsub
  · exact .inr ⟨h0, w, h1, hang_self h1⟩

theorem Hang.mono {p q : Nat} (h : Hang G p q) (hl : ∀ k, G.Live B.N k → G'.Live B.N k) : Hang G' p q :=
  ⟨h.1, h.2.imp id fun ⟨k, h1, h2⟩ => ⟨k, hl k h1, h2⟩⟩

theorem ToU.low {S : Nat → Prop} {k : Nat} (hap : B.ap = false) (h : ToU Pl v S) (hS : ∀ x, S x → B.Sub k x) : Pl.low k < v := by
  obtain ⟨u, h0, f, h1, h2⟩ := h.resolve_right fun k => by rw [hap] at k; exact absurd k.1 (by decide)
  have h3 := hS _ h2
  have h4 := Pl.low_desc h3.2 h3.1.1 h3.1.2
  have h5 := Pl.la_le u f h1
  omega

/-- A vertex found future pertinent has an edge to before `v`, itself or below. -/
theorem act_of_test (hfull : ∀ u, u < v → fw u = Pl.fw0 u) {w : Nat} (hw : 1 ≤ w ∧ w ≤ B.N) (hvw : v < w) (h : St Pl s G fw PR v)
    (hf : Fresh Pl s G v w) (ht : s.futurePertinent w v = some true) : Act Pl G fw v w := by
  unfold EGraph.futurePertinent at ht
  have hrd : s.p.rdVI w = some (s.p.VI w) := if_pos (by rw [h.rep.N]; omega)
  rw [hrd] at ht
  simp only [Option.bind_eq_bind, Option.bind_some] at ht
  split at ht
  · next hla =>
    rw [h.la w hw.1 hw.2] at hla
    rcases Pl.la_hit w hw.1 hw.2 with h1 | ⟨f, h1, h2⟩
    · omega
    · exact ⟨_, hla, f, by rw [hfull _ hla]; exact h1, .inl h2⟩
  · split at ht
    · next hc =>
      obtain ⟨h1, h2, h3⟩ := hf hc
      have h4 := (h.good.root _ h2).1
      have h5 := B.par_lt _ h2.1 h4
      obtain ⟨u, u1, f, u2, u3⟩ := low_arc Pl ⟨h2.1, h4⟩ (by omega) h1
      exact ⟨u, u1, f, by rw [hfull u u1]; exact u2, .inr ⟨_, h2, h3, u3.2⟩⟩
    · simp [pure] at ht

/-- An idle vertex has none. -/
theorem Idle.not_act (hsub : ∀ u, (fw u).Sublist (Pl.fw0 u)) {x : Nat} (h : Idle Pl G v x) : ¬ Act Pl G fw v x :=
  fun ⟨_, hu, hn⟩ => h.not_need hsub hu hn

/-- What is known of the time before a walk down: the components and arcs at its start; the vertices linked around the
component of `c0` and the components and arcs when a traversal starts. -/
structure Past (B : Base) where
  G0 : Gh B.D
  fw : Nat → List Nat
  PR : Nat → List Nat
  vis : Nat → Nat
  base : List Nat
  gS : Gh B.D
  fS : Nat → List Nat
  PS : Nat → List Nat

/-- The state at the start of a walk down. -/
structure Orig (Pl : Plan B) (p : Past B) (v c0 : Nat) : Prop where
  good : Good B.N B.par B.α p.G0
  live : p.G0.Live B.N c0
  par : B.par c0 = v
  sub : ∀ u, (p.fw u).Sublist (Pl.fw0 u)
  act : ∀ u x, u ≤ v → u < x → Need Pl p.G0 p.fw u x → p.G0.Live B.N (p.G0.cp x) ∧ x ∈ p.G0.X (p.G0.cp x)
  rim : ∀ k, p.G0.Live B.N k → Rim p.G0 k
  full : ∀ u, u < v → p.fw u = Pl.fw0 u
  ord : ∀ z, (p.PR z).Pairwise fun a b => Pl.low a < v → Pl.low b < v

/-- At the start the ends around every component below are as they should be. -/
def Ends0 (Pl : Plan B) (p : Past B) (v : Nat) : Prop := B.ap = false → ∀ k, p.G0.Live B.N k → v < B.par k → EndsOK Pl p.G0 p.fw (v + 1) k

section
variable {p : Past B}

theorem Orig.child (o : Orig Pl p v c0) : B.Child c0 :=
  ⟨o.live.1, (o.good.root c0 o.live).1, (o.good.root c0 o.live).2.1⟩

theorem Orig.range (o : Orig Pl p v c0) {k : Nat} (hk : p.G0.Live B.N k) : 1 ≤ k ∧ k ≤ B.N := ⟨hk.1, (o.good.root k hk).1⟩

theorem Orig.site (o : Orig Pl p v c0) {c : Nat} {l : List Nat} (hc : p.G0.Live B.N c) (hne : c ≠ c0) (hb : AncEq B.par c0 c)
    (hl : l = p.G0.X c ∨ l = (p.G0.X c).reverse) : ∃ F, Site Pl p.G0 v c0 c F ∧ l.Sublist F := by
  obtain ⟨F, h1, h2, h3, h4⟩ := o.rim c hc
  have hS : Site Pl p.G0 v c0 c F := ⟨o.good, hc, o.par, o.child, hb, hne, h1, h3, h4⟩
  rcases hl with rfl | rfl
  · exact ⟨F, hS, h2⟩
  · exact ⟨F.reverse, hS.ring_rev, h2.reverse⟩

end

theorem sub_two {F : List Nat} {a b : Nat} (h : [a, b].Sublist F) : ∃ I I', F = I ++ I' ∧ a ∈ I ∧ b ∈ I' := by
  obtain ⟨I, I', h1, h2, h3⟩ := List.cons_sublist_iff.1 h
  exact ⟨I, I', h1, h2, List.singleton_sublist.1 h3⟩

theorem sub_three {F : List Nat} {a w b : Nat} (h : [a, w, b].Sublist F) : ∃ I I', F = I ++ w :: I' ∧ a ∈ I ∧ b ∈ I' := by
  obtain ⟨I, R, h1, h2, h3⟩ := List.cons_sublist_iff.1 h
  obtain ⟨J, I', h4, h5, h6⟩ := List.cons_sublist_iff.1 h3
  obtain ⟨J1, J2, h7⟩ := List.append_of_mem h5
  refine ⟨I ++ J1, J2 ++ I', ?_, by simp [h2], ?_⟩
  · rw [h1, h4, h7]; simp
  · have := List.singleton_sublist.1 h6
    simp [this]

theorem sub_three' {F : List Nat} {a w b : Nat} (h : [a, w, b].Sublist F) : ∃ I A C, F = I ++ A ++ C ∧ a ∈ I ∧ w ∈ A ∧ b ∈ C := by
  obtain ⟨I, I', h1, h2, h3⟩ := sub_three h
  exact ⟨I, [w], I', by simp [h1], h2, by simp, h3⟩

theorem hangs_of {l : List Nat} {p q : Nat} (hp : p ∈ l) (h : Hang G p q) : Hangs G l q := ⟨p, hp, h⟩

/-- The three vertices between which an obstacle of the first kind is. -/
theorem Site.one {F : List Nat} (h : Site Pl G v c0 c F) {a w b : Nat} (hs : [a, w, b].Sublist F) (h1 : ToU Pl v (Hang G a))
    (h2 : ToV Pl v (Hang G w)) (h3 : ToU Pl v (Hang G b)) : B.Bad := by
  obtain ⟨I, I', e, ha, hb⟩ := sub_three hs
  exact h.obs1 e (h1.mono fun _ => hangs_of ha) h2 (h3.mono fun _ => hangs_of hb)

theorem Site.two {F : List Nat} (h : Site Pl G v c0 c F) {a w b : Nat} (hs : [a, w, b].Sublist F) (h1 : ToV Pl v (Hang G a))
    (h2 : ToU Pl v (Hang G w)) (h3 : ToV Pl v (Hang G b)) (h4 : ToU Pl v (B.Rest c0 c)) : B.Bad := by
  obtain ⟨I, A, C, e, ha, hw, hb⟩ := sub_three' hs
  exact h.obs2 e (h1.mono fun _ => hangs_of ha) (h2.mono fun _ => hangs_of hw) (h3.mono fun _ => hangs_of hb) h4

theorem Site.three {F : List Nat} (h : Site Pl G v c0 c F) {a b : Nat} (hs : [a, b].Sublist F) (h1 : ToV Pl v (Hang G a))
    (h2 : ToU Pl v (Hang G a)) (h3 : ToV Pl v (Hang G b)) (h3' : ToU Pl v (Hang G b)) (h4 : ToU Pl v (B.Rest c0 c)) : B.Bad := by
  obtain ⟨I, C, e, ha, hb⟩ := sub_two hs
  exact h.obs3 e (h1.mono fun _ => hangs_of ha) (h2.mono fun _ => hangs_of ha) (h3.mono fun _ => hangs_of hb)
    (h3'.mono fun _ => hangs_of hb) h4

/-- Ends and an inner element of a list. -/
theorem ends_sub {l : List Nat} {a z w : Nat} (ha : l.head? = some a) (hz : l.getLast? = some z) (hw : w ∈ l) (h1 : w ≠ a) (h2 : w ≠ z) :
    [a, w, z].Sublist l := by
  cases l with
  | nil => simp at ha
  | cons a' l =>
    simp only [List.head?_cons, Option.some.injEq] at ha
    subst ha
    refine List.Sublist.cons_cons _ ?_
    have hw' : w ∈ l := by simpa [h1] using hw
    rcases List.eq_nil_or_concat l with rfl | ⟨l', z', rfl⟩
    · simp at hw'
    · rw [List.concat_eq_append] at *
      have : z' = z := by simpa [List.getLast?_cons] using hz
      subst this
      have hw'' : w ∈ l' := by simpa [h2] using hw'
      exact (List.singleton_sublist.2 hw'').append (List.Sublist.refl [z'])

end Verif.Embed
