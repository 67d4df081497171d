import Verif.Embed.InitVertex

/-
The state _EmbeddingInitialize leaves is ready for the main loop.
-/
namespace Verif.Embed
open Verif Verif.Graph Verif.EGraph Verif.DFS Equiv Equiv.Perm Verif.Map Function
open Verif.Props (AncEq Anc)

variable {B : Base} {nb la : Nat → Nat} {fw kid : Nat → List Nat} {sp s : EGraph}

/-- Tree arcs are different. -/
theorem Prep.ta_ne (h : Prep B nb la fw kid sp) {c d : Nat} (hc : B.Child c) (hd : B.Child d) :
    (B.ta c = B.ta d → c = d) ∧ B.ta c ≠ twin (B.ta d) := by
  obtain ⟨_, c1, c2, _⟩ := h.ta c hc
  obtain ⟨_, d1, d2, _⟩ := h.ta d hd
  constructor
  · intro hh; rw [hh, d1] at c1; exact c1.symm
  · intro hh
    rw [hh, d2] at c1
    rw [hh, twin_twin, d1] at c2
    have := B.par_lt c hc.1 hc.2.1
    have := B.par_lt d hd.1 hd.2.1
    omega

/-- The second loop has been done for the vertices after `k`. -/
structure Mid (B : Base) (la : Nat → Nat) (kid : Nat → List Nat) (sp s : EGraph) (k : Nat) : Prop where
  fix : Fix B.g0 s.p.g
  V : ∀ x, x ≤ k ∨ B.N < x → s.p.g.V x = sp.p.g.V x
  Vv : ∀ x, k < x → x ≤ B.N → ∀ b, (s.p.g.V x).link b = if B.par x = 0 then 0 else twin (B.ta x)
  E : ∀ e, (∀ c, k < c → B.Child c → e ≠ B.ta c ∧ e ≠ twin (B.ta c)) → s.p.g.E e = sp.p.g.E e
  Et : ∀ c, k < c → B.Child c → s.p.g.E (B.ta c) = noLinks (sp.p.g.E (B.ta c)) ∧
    s.p.g.E (twin (B.ta c)) = { noLinks (sp.p.g.E (twin (B.ta c))) with nbr := c + B.N }
  VI : ∀ x, x ≤ k ∨ B.N < x → s.p.VI x = sp.p.VI x
  VIx : ∀ x, k < x → x ≤ B.N → ∃ l, s.p.VI x = { sp.p.VI x with visitedInfo := B.N, futurePertinentChild := (sp.p.VI x).sortedDFSChildList, lowpoint := l }
  lowLa : ∀ x, k < x → x ≤ B.N → (s.p.VI x).lowpoint ≤ la x
  lowKid : ∀ x, k < x → x ≤ B.N → ∀ c ∈ kid x, (s.p.VI x).lowpoint ≤ (s.p.VI c).lowpoint
  lowHit : ∀ x, k < x → x ≤ B.N → (s.p.VI x).lowpoint = la x ∨ ∃ c ∈ kid x, (s.p.VI x).lowpoint = (s.p.VI c).lowpoint
  kids : s.kids = sp.kids
  roots : s.roots = sp.roots
  ext : ∀ c, k < c → B.Child c → ∀ b, s.ext (c + B.N) b = c ∧ s.ext c b = c + B.N

theorem Prep.mid (h : Prep B nb la fw kid sp) : Mid B la kid sp sp B.N := by
  refine ⟨h.g0 ▸ Fix.refl _, fun _ _ => rfl, ?_, fun _ _ => rfl, ?_, fun _ _ => rfl, ?_, ?_, ?_, ?_, rfl, rfl, ?_⟩
  · intro x h1 h2; omega
  · intro c h1 h2; have := h2.2.1; omega
  · intro x h1 h2; omega
  · intro x h1 h2; omega
  · intro x h1 h2; omega
  · intro x h1 h2; omega
  · intro c h1 h2; have := h2.2.1; omega

theorem Mid.step (h : Prep B nb la fw kid sp) {k : Nat} (hk : k + 1 ≤ B.N) (m : Mid B la kid sp s (k + 1)) {s' : EGraph}
    (he : s.initVertex (k + 1) = some s') : Mid B la kid sp s' k := by
  obtain ⟨l, v⟩ := initVertex_some he
  have hN : s.p.g.N = B.N := by rw [m.fix.N, B.hN]
  have hV1 := m.VI (k + 1) (.inl le_rfl)
  have hpar : (s.p.VI (k + 1)).parent = B.par (k + 1) := by rw [hV1]; exact h.parent _ (by omega) hk
  have hch : B.par (k + 1) ≠ 0 → B.Child (k + 1) := fun h0 => ⟨by omega, hk, h0⟩
  have hRt : B.par (k + 1) ≠ 0 → ∀ b, (s.p.g.V (k + 1 + s.p.g.N)).link b = B.ta (k + 1) := by
    intro h0 b
    rw [hN, m.V _ (.inr (by omega))]
    exact (h.ta _ (hch h0)).2.2.2 b
  have hlow := v.low
  obtain ⟨s1, a1, a2, a3, a4⟩ := hlow
  have hll := leastLow_some (s := s1) (n := B.N) (kid := kid) (hd := fun x => (sp.p.VI x).sortedDFSChildList) (by rw [a1, m.kids]; exact h.kl) (x := k + 1)
    ⟨by omega, hk⟩ (1 + s.p.g.N) [] (kid (k + 1)) (s.p.VI (k + 1)).leastAncestor l (by simp) (by
      have hh := h.kl.head (k + 1) (by omega) hk
      have hh : (sp.p.VI (k + 1)).sortedDFSChildList = (kid (k + 1)).headD 0 := hh
      rw [← hh]
      rw [hV1] at a4
      rw [hV1]; exact a4)
  have hl : ∀ x, x ≠ k + 1 → s'.p.VI x = s.p.VI x := fun x hx => by rw [v.VI, if_neg hx]
  have hlv : (s'.p.VI (k + 1)).lowpoint = l := by rw [v.VI, if_pos rfl]
  constructor
  · exact m.fix.trans v.fix
  · intro x hx; rw [v.V x (by omega)]; exact m.V x (by omega)
  · intro x h1 h2 b
    by_cases hx : x = k + 1
    · subst hx
      rw [v.Vv, hpar]
      by_cases h0 : B.par (k + 1) = 0
      · rw [if_pos h0, if_pos h0]
      · rw [if_neg h0, if_neg h0, hRt h0]
    · rw [v.V x hx]; exact m.Vv x (by omega) h2 b
  · intro e hE
    have hm := m.E e fun c hc => hE c (by omega)
    by_cases h0 : B.par (k + 1) = 0
    · rw [v.E0 (by rw [hpar]; exact h0)]; exact hm
    · rw [v.E (by rw [hpar]; exact h0) (B.ta (k + 1)) (hRt h0 false).symm]
      have := hE (k + 1) (by omega) (hch h0)
      rw [if_neg this.2, if_neg this.1]; exact hm
  · intro c hc hcc
    by_cases hck : c = k + 1
    · subst hck
      have h0 := hcc.2.2
      have e1 := v.E (by rw [hpar]; exact h0) (B.ta (k + 1)) (hRt h0 false).symm
      have hother : ∀ d, k + 1 < d → B.Child d → (B.ta (k + 1) ≠ B.ta d ∧ B.ta (k + 1) ≠ twin (B.ta d)) ∧
          (twin (B.ta (k + 1)) ≠ B.ta d ∧ twin (B.ta (k + 1)) ≠ twin (B.ta d)) := by
        intro d hd hdc
        have q1 := h.ta_ne hcc hdc
        have q2 := h.ta_ne hdc hcc
        refine ⟨⟨fun hh => ?_, q1.2⟩, ?_, ?_⟩
        · have := q1.1 hh; omega
        · exact Ne.symm q2.2
        · intro hh
          have := congrArg twin hh
          rw [twin_twin, twin_twin] at this
          have := q1.1 this; omega
      have m1 := m.E (B.ta (k + 1)) fun d hd hdc => (hother d hd hdc).1
      have m2 := m.E (twin (B.ta (k + 1))) fun d hd hdc => (hother d hd hdc).2
      rw [e1, e1, if_neg (twin_ne _).symm, if_pos rfl, if_pos rfl, m1, m2, hN]
      exact ⟨rfl, rfl⟩
    · have key : ∀ e, (e = B.ta c ∨ e = twin (B.ta c)) → s'.p.g.E e = s.p.g.E e := by
        intro e hec
        by_cases h0 : B.par (k + 1) = 0
        · rw [v.E0 (by rw [hpar]; exact h0)]
        · rw [v.E (by rw [hpar]; exact h0) (B.ta (k + 1)) (hRt h0 false).symm]
          have q2 := h.ta_ne hcc (hch h0)
          have q3 := h.ta_ne (hch h0) hcc
          rw [if_neg, if_neg]
          · rcases hec with rfl | rfl
            · intro hh; exact hck (q2.1 hh)
            · intro hh; exact q3.2 hh.symm
          · rcases hec with rfl | rfl
            · exact q2.2
            · intro hh
              have := congrArg twin hh
              rw [twin_twin, twin_twin] at this
              exact hck (q2.1 this)
      rw [key _ (.inl rfl), key _ (.inr rfl)]
      exact m.Et c (by omega) hcc
  · intro x hx
    rw [hl x (by omega)]; exact m.VI x (by omega)
  · intro x h1 h2
    by_cases hx : x = k + 1
    · subst hx
      refine ⟨l, ?_⟩
      rw [v.VI, if_pos rfl, hV1, hN]
    · rw [hl x hx]; exact m.VIx x (by omega) h2
  · intro x h1 h2
    by_cases hx : x = k + 1
    · subst hx
      rw [hlv]
      have := hll.1
      rw [hV1, h.laEq _ (by omega) hk] at this
      exact this
    · rw [hl x hx]; exact m.lowLa x (by omega) h2
  · intro x h1 h2 c hc
    have hcc := (h.kidIff x c).1 hc
    have hlt := B.par_lt c hcc.1.1 hcc.1.2.1
    have hck : c ≠ k + 1 := by omega
    rw [hl c hck]
    by_cases hx : x = k + 1
    · subst hx
      rw [hlv]
      have := hll.2.1 c hc
      rw [a3] at this; exact this
    · rw [hl x hx]; exact m.lowKid x (by omega) h2 c hc
  · intro x h1 h2
    have hck : ∀ c ∈ kid x, c ≠ k + 1 := by
      intro c hc
      have hcc := (h.kidIff x c).1 hc
      have hlt := B.par_lt c hcc.1.1 hcc.1.2.1
      omega
    by_cases hx : x = k + 1
    · subst hx
      rw [hlv]
      rcases hll.2.2 with q | ⟨c, q1, q2⟩
      · left
        rw [hV1, h.laEq _ (by omega) hk] at q
        exact q
      · right
        exact ⟨c, q1, by rw [hl c (hck c q1), q2, a3]⟩
    · rw [hl x hx]
      rcases m.lowHit x (by omega) h2 with q | ⟨c, q1, q2⟩
      · exact .inl q
      · exact .inr ⟨c, q1, by rw [hl c (hck c q1), q2]⟩
  · rw [v.kids]; exact m.kids
  · rw [v.roots]; exact m.roots
  · intro c hc hcc b
    by_cases h0 : B.par (k + 1) = 0
    · rw [v.ext0 (by rw [hpar]; exact h0)]
      refine m.ext c ?_ hcc b
      rcases Nat.lt_or_ge (k + 1) c with hh | hh
      · exact hh
      · have : c = k + 1 := by omega
        subst this; exact absurd h0 hcc.2.2
    · have e1 := v.ext (by rw [hpar]; exact h0)
      rw [e1, e1, hN]
      have := hcc.2.1
      by_cases hck : c = k + 1
      · subst hck
        rw [if_pos rfl, if_neg (by omega), if_pos rfl]; exact ⟨rfl, rfl⟩
      · rw [if_neg (by omega), if_neg (by omega), if_neg (by omega), if_neg hck]
        exact m.ext c (by omega) hcc b

/-- The step of the second loop is defined. -/
theorem Mid.total (h : Prep B nb la fw kid sp) {k : Nat} (hk : k + 1 ≤ B.N) (m : Mid B la kid sp s (k + 1)) :
    ∃ s', s.initVertex (k + 1) = some s' := by
  have hN : s.p.g.N = B.N := by rw [m.fix.N, B.hN]
  have hV1 := m.VI (k + 1) (.inl le_rfl)
  refine initVertex_total (by omega) ?_ ?_
  · intro s1 h1 h2
    rw [hV1]
    have hh : (sp.p.VI (k + 1)).sortedDFSChildList = (kid (k + 1)).headD 0 := h.kl.head (k + 1) (by omega) hk
    have hc : ∀ c ∈ kid (k + 1), 1 ≤ c ∧ c ≤ B.N := fun c hc => ⟨((h.kidIff _ c).1 hc).1.1, ((h.kidIff _ c).1 hc).1.2.1⟩
    have := leastLow_total (s := s1) (n := B.N) (kid := kid) (hd := fun x => (sp.p.VI x).sortedDFSChildList) (by rw [h1, m.kids]; exact h.kl) (x := k + 1)
      ⟨by omega, hk⟩ (1 + s.p.g.N) [] (kid (k + 1)) (sp.p.VI (k + 1)).leastAncestor (by simp)
      (by have := order_length (h.kl.nodup (k + 1)) hc; omega) (fun c hx => by rw [h2, hN]; exact (hc c hx).2)
    rw [← hh] at this
    exact this
  · intro hp
    have hc : B.Child (k + 1) := ⟨by omega, hk, by rw [← h.parent _ (by omega) hk, ← hV1]; exact hp⟩
    have h1 : (s.p.g.V (k + 1 + s.p.g.N)).link false = B.ta (k + 1) := by
      rw [hN, m.V _ (.inr (by omega))]; exact (h.ta _ hc).2.2.2 false
    have hA := (h.ta _ hc).1
    have hS : s.p.g.eSize = B.g0.eSize := m.fix.eSize
    rw [h1, hS]
    exact ⟨(B.rng _ hA).2, (B.rng _ (B.tw _ hA)).2⟩

theorem Mid.loop (h : Prep B nb la fw kid sp) : ∀ (n : Nat), n ≤ B.N →
    ∃ s, (List.range n).foldlM (fun s i => s.initVertex (s.p.g.N - i)) sp = some s ∧ Mid B la kid sp s (B.N - n) := by
  intro n
  induction n with
  | zero => exact fun _ => ⟨sp, rfl, h.mid⟩
  | succ n ih =>
    intro hn
    obtain ⟨s1, h1, m⟩ := ih (by omega)
    have hN : s1.p.g.N = B.N := by rw [m.fix.N, B.hN]
    have e1 : B.N - n = B.N - (n + 1) + 1 := by omega
    rw [e1] at m
    obtain ⟨s2, h2⟩ := m.total h (by omega)
    refine ⟨s2, ?_, m.step h (by omega) h2⟩
    rw [List.range_succ, List.foldlM_append, h1]
    simp only [List.foldlM_cons, List.foldlM_nil, Option.bind_eq_bind, Option.bind_some]
    rw [hN, e1, h2]
    rfl

theorem flat_one {D : Type} (α : Perm D) : Flat 1 α := by
  have h1 : SameCycle.setoid (1 : Perm D) = ⊥ := by
    ext a b
    show SameCycle 1 a b ↔ a = b
    exact sameCycle_one
  have h2 : joined 1 α = SameCycle.setoid α := by unfold joined; rw [h1, bot_sup_eq]
  have h3 : cyc (1 : Perm D) = Nat.card D := by
    unfold cyc cls; rw [h1]
    exact Nat.card_congr ⟨fun q => Quotient.lift (s := ⊥) id (fun _ _ h => h) q, fun a => Quotient.mk ⊥ a,
      fun q => Quotient.inductionOn q fun _ => rfl, fun _ => rfl⟩
  unfold Flat
  rw [h2, h3, one_mul]
  show _ + cyc α + cyc α = _ + 2 * cyc α
  omega

open Classical in
/-- The ideal state at the start: every child is a component with its tree edge. -/
noncomputable def gh0 (B : Base) (hA : ∀ c, B.Child c → B.A (B.ta c)) : Gh B.D where
  σ := 1
  L x := if h : B.Child x then [⟨twin (B.ta x), B.tw _ (hA x h)⟩]
    else if h : B.Child (x - B.N) ∧ B.N < x then [⟨B.ta (x - B.N), hA _ h.1⟩] else []
  o _ := false
  cp x := if x ≤ B.N then x else x - B.N
  X c := [c]

section
variable (hA : ∀ c, B.Child c → B.A (B.ta c))

theorem gh0_child {x : Nat} (h : B.Child x) : (gh0 B hA).L x = [⟨twin (B.ta x), B.tw _ (hA x h)⟩] := dif_pos h

theorem gh0_root {c : Nat} (h : B.Child c) : (gh0 B hA).L (c + B.N) = [⟨B.ta c, hA c h⟩] := by
  have h1 : ¬ B.Child (c + B.N) := fun hh => by have := hh.2.1; have := h.1; omega
  have h2 : B.Child (c + B.N - B.N) ∧ B.N < c + B.N := by
    have : c + B.N - B.N = c := by omega
    rw [this]; exact ⟨h, by have := h.1; omega⟩
  have e : (gh0 B hA).L (c + B.N) = [⟨B.ta (c + B.N - B.N), hA _ h2.1⟩] := (dif_neg h1).trans (dif_pos h2)
  rw [e]
  congr 2
  have : c + B.N - B.N = c := by omega
  rw [this]

theorem gh0_else {x : Nat} (h1 : ¬ B.Child x) (h2 : ¬ (B.Child (x - B.N) ∧ B.N < x)) : (gh0 B hA).L x = [] :=
  (dif_neg h1).trans (dif_neg h2)

theorem gh0_mem {x : Nat} {d : B.D} (h : d ∈ (gh0 B hA).L x) :
    (B.Child x ∧ d.1 = twin (B.ta x)) ∨ (∃ c, B.Child c ∧ x = c + B.N ∧ d.1 = B.ta c) := by
  by_cases h1 : B.Child x
  · rw [gh0_child hA h1, List.mem_singleton] at h
    exact .inl ⟨h1, by rw [h]⟩
  · by_cases h2 : B.Child (x - B.N) ∧ B.N < x
    · have : x - B.N + B.N = x := by omega
      have e := gh0_root hA h2.1
      rw [this] at e
      rw [e, List.mem_singleton] at h
      exact .inr ⟨x - B.N, h2.1, this.symm, by rw [h]⟩
    · rw [gh0_else hA h1 h2] at h; cases h

theorem gh0_live {c : Nat} : (gh0 B hA).Live B.N c ↔ B.Child c := by
  constructor
  · rintro ⟨h1, h2⟩
    obtain ⟨d, hd⟩ := List.exists_mem_of_ne_nil _ h2
    rcases gh0_mem hA hd with ⟨k, _⟩ | ⟨k, k1, k2, _⟩
    · have := k.2.1; omega
    · have : c = k := by omega
      rw [this]; exact k1
  · intro h
    exact ⟨h.1, by rw [gh0_root hA h]; simp⟩

theorem gh0_raw (x : Nat) : raw (gh0 B hA) x = ((gh0 B hA).L x).map (·.1) := by
  unfold raw
  show dir false _ = _
  rw [dir_false]

end

theorem Prep.good (h : Prep B nb la fw kid sp) : Good B.N B.par B.α (gh0 B fun c hc => (h.ta c hc).1) := by
  have hA : ∀ c, B.Child c → B.A (B.ta c) := fun c hc => (h.ta c hc).1
  refine ⟨⟨flat_one _, ?_, ?_, ?_, fun _ _ => rfl⟩, ?_, ?_, ?_, ?_, ?_, ?_, ?_, ?_⟩
  · intro x
    by_cases h1 : B.Child x
    · rw [gh0_child hA h1, orbit_cons]; simp [gh0]
    · by_cases h2 : B.Child (x - B.N) ∧ B.N < x
      · have : x - B.N + B.N = x := by omega
        have e := gh0_root hA h2.1
        rw [this] at e
        rw [e, orbit_cons]; simp [gh0]
      · rw [gh0_else hA h1 h2]; exact orbit_nil _
  · intro x
    by_cases h1 : B.Child x
    · rw [gh0_child hA h1]; simp
    · by_cases h2 : B.Child (x - B.N) ∧ B.N < x
      · have : x - B.N + B.N = x := by omega
        have e := gh0_root hA h2.1
        rw [this] at e
        rw [e]; simp
      · rw [gh0_else hA h1 h2]; simp
  · intro x y d hx hy
    rcases gh0_mem hA hx with ⟨k, e⟩ | ⟨k, k1, k2, e⟩ <;> rcases gh0_mem hA hy with ⟨j, e'⟩ | ⟨j, j1, j2, e'⟩
    · rw [e] at e'
      have := congrArg twin e'
      rw [twin_twin, twin_twin] at this
      exact (h.ta_ne k j).1 this
    · rw [e] at e'; exact absurd e'.symm (h.ta_ne j1 k).2
    · rw [e] at e'; exact absurd e' (h.ta_ne k1 j).2
    · rw [e] at e'; rw [k2, j2, (h.ta_ne k1 j1).1 e']
  · intro x d hx
    rcases gh0_mem hA hx with ⟨k, e⟩ | ⟨k, k1, k2, e⟩
    · refine ⟨x + B.N, ?_, ?_⟩
      · rw [gh0_root hA k, List.mem_singleton]
        apply Subtype.ext
        rw [B.α_val, e, twin_twin]
      · show (if x + B.N ≤ B.N then _ else _) = if x ≤ B.N then _ else _
        have := k.1
        rw [if_neg (by omega), if_pos k.2.1]; omega
    · refine ⟨k, ?_, ?_⟩
      · rw [gh0_child hA k1, List.mem_singleton]
        apply Subtype.ext
        rw [B.α_val, e]
      · subst k2
        show (if k ≤ B.N then _ else _) = if k + B.N ≤ B.N then _ else _
        have := k1.1
        rw [if_pos k1.2.1, if_neg (by omega)]; omega
  · intro x hx
    obtain ⟨d, hd⟩ := List.exists_mem_of_ne_nil _ hx
    rcases gh0_mem hA hd with ⟨k, e⟩ | ⟨k, k1, k2, e⟩
    · have := k.1; have := k.2.1; omega
    · have := k1.1; have := k1.2.1; omega
  · intro c hc
    have hc := (gh0_live hA).1 hc
    refine ⟨hc.2.1, hc.2.2, ?_⟩
    show (if c + B.N ≤ B.N then _ else _) = _
    have := hc.1
    rw [if_neg (by omega)]; omega
  · intro c hc
    have hc := (gh0_live hA).1 hc
    exact if_pos hc.2.1
  · intro x h1 h2 h3 h4
    exact absurd ((gh0_live hA).2 ⟨h1, h2, h3⟩) h4
  · intro x h1 h2 _
    exact if_pos h2
  · intro c hc
    have hc := (gh0_live hA).1 hc
    refine ⟨_, [], [⟨twin (B.ta c), B.tw _ (hA c hc)⟩], gh0_root hA hc, ?_, ?_, ?_⟩
    · rw [orbit_cons]
      show [((1 : Perm B.D) * B.α) _, ((1 : Perm B.D) * B.α) _] = _
      rw [one_mul]
      simp only [List.singleton_append, List.cons.injEq, and_true]
      refine ⟨rfl, ?_⟩
      apply Subtype.ext
      rw [B.α_val]; exact twin_twin _
    · simp only [List.nodup_cons, List.mem_singleton, List.not_mem_nil, not_false_eq_true, List.nodup_nil, and_true]
      intro hh; exact twin_ne _ (congrArg Subtype.val hh).symm
    · show List.Sublist [(gh0 B hA).hd c] _
      unfold Gh.hd
      rw [gh0_child hA hc]
      exact List.Sublist.refl _
  · intro c hc x hx
    have hc := (gh0_live hA).1 hc
    have hx : x ∈ [c] := hx
    rw [List.mem_singleton] at hx
    subst hx
    exact ⟨hc.1, hc.2.1, if_pos hc.2.1⟩

/-- A single tree edge has no other place on its outer face. -/
theorem gh0_tight (hA : ∀ c, B.Child c → B.A (B.ta c)) {c : Nat} (hc : B.Child c) : (gh0 B hA).Tight B.α B.N c := by
  refine ⟨_, [], [⟨twin (B.ta c), B.tw _ (hA c hc)⟩], gh0_root hA hc, ?_, ?_, ?_, ?_⟩
  · rw [List.nil_append, orbit_cons]
    show [((1 : Perm B.D) * B.α) _, ((1 : Perm B.D) * B.α) _] = _
    rw [one_mul]
    simp only [List.singleton_append, List.cons.injEq, and_true]
    refine ⟨rfl, ?_⟩
    apply Subtype.ext
    rw [B.α_val]; exact twin_twin _
  · simp only [List.nil_append, List.nodup_cons, List.mem_singleton, List.not_mem_nil, not_false_eq_true, List.nodup_nil, and_true]
    intro hh; exact twin_ne _ (congrArg Subtype.val hh).symm
  · show List.Sublist [(gh0 B hA).hd c] _
    unfold Gh.hd
    rw [gh0_child hA hc]
    exact List.Sublist.refl _
  · intro d hd
    rw [List.mem_singleton] at hd
    refine ⟨c, hc.2.1, ?_⟩
    unfold Gh.hd
    rw [gh0_child hA hc, hd]; rfl

theorem Mid.rep (h : Prep B nb la fw kid sp) (m : Mid B la kid sp s 0) : Rep B s (gh0 B fun c hc => (h.ta c hc).1) := by
  have hA : ∀ c, B.Child c → B.A (B.ta c) := fun c hc => (h.ta c hc).1
  have hN : s.p.g.N = B.N := by rw [m.fix.N, B.hN]
  have hS : s.p.g.eSize = B.g0.eSize := m.fix.eSize
  have hraw1 : ∀ {x}, B.Child x → raw (gh0 B hA) x = [twin (B.ta x)] := by
    intro x hx; rw [gh0_raw, gh0_child hA hx]; rfl
  have hraw2 : ∀ {c}, B.Child c → raw (gh0 B hA) (c + B.N) = [B.ta c] := by
    intro x hx; rw [gh0_raw, gh0_root hA hx]; rfl
  have hmem : ∀ {x e}, e ∈ raw (gh0 B hA) x → (B.Child x ∧ e = twin (B.ta x)) ∨ (∃ c, B.Child c ∧ x = c + B.N ∧ e = B.ta c) := by
    intro x e he
    obtain ⟨ha, he⟩ := mem_raw.1 he
    exact gh0_mem hA he
  have hEt := fun c (hc : B.Child c) => m.Et c (by have := hc.1; omega) hc
  have hflag : ∀ e, (s.p.g.E e).flags = (sp.p.g.E e).flags := by
    intro e
    by_cases hq : ∃ c, B.Child c ∧ (e = B.ta c ∨ e = twin (B.ta c))
    · obtain ⟨c, hc, rfl | rfl⟩ := hq
      · rw [(hEt c hc).1]; rfl
      · rw [(hEt c hc).2]; rfl
    · rw [m.E e]
      intro c _ hc
      exact ⟨fun hh => hq ⟨c, hc, .inl hh⟩, fun hh => hq ⟨c, hc, .inr hh⟩⟩
  have hhold : ∀ c, B.Child c → holder (gh0 B hA) c = c + B.N := fun c hc => holder_live ((gh0_live hA).2 hc)
  refine ⟨m.fix, ?_, ?_, ?_, ?_, ?_, ?_, ?_, ?_, ?_, ?_⟩
  · constructor
    · intro v b hv
      have hv : v < 1 + s.p.g.N + s.p.g.N := hv
      rw [hN] at hv
      by_cases h1 : B.Child v
      · rw [hraw1 h1, m.Vv v (by have := h1.1; omega) h1.2.1, if_neg h1.2.2]
        cases b <;> rfl
      · by_cases h2 : B.Child (v - B.N) ∧ B.N < v
        · have : v - B.N + B.N = v := by omega
          have e := hraw2 h2.1
          have e2 := (h.ta _ h2.1).2.2.2 b
          rw [this] at e e2
          rw [e, m.V v (.inr h2.2), e2]
          cases b <;> rfl
        · have e : raw (gh0 B hA) v = [] := by rw [gh0_raw, gh0_else hA h1 h2]; rfl
          have z : endIn b ([] : List Nat) = 0 := by cases b <;> rfl
          rw [e, z]
          by_cases h3 : B.N < v
          · rw [m.V v (.inr h3)]
            exact h.noRoot v h3 (by omega) (fun hh => h2 ⟨hh, h3⟩) b
          · by_cases h4 : v = 0
            · subst h4
              rw [m.V 0 (.inl le_rfl)]; exact h.zeroV b
            · rw [m.Vv v (by omega) (by omega), if_pos]
              by_contra h5
              exact h1 ⟨by omega, by omega, h5⟩
    · intro v b e he
      have z : ∀ e, nextIn (dir b [e]) e = 0 := by intro e; cases b <;> simp [dir]
      rcases hmem he with ⟨h1, rfl⟩ | ⟨c, h1, rfl, rfl⟩
      · rw [hraw1 h1, (hEt _ h1).2, z]; cases b <;> rfl
      · rw [hraw2 h1, (hEt _ h1).1, z]; cases b <;> rfl
    · intro v
      rw [gh0_raw]
      exact ((h.good).core.nodup v).map Subtype.val_injective
    · intro v e he
      obtain ⟨ha, _⟩ := mem_raw.1 he
      rw [hS]; exact B.rng e ha
    · intro v e he
      show 1 ≤ v ∧ v < 1 + s.p.g.N + s.p.g.N
      rw [hN]
      rcases hmem he with ⟨h1, rfl⟩ | ⟨c, h1, rfl, rfl⟩
      · have := h1.1; have := h1.2.1; omega
      · have := h1.1; have := h1.2.1; omega
    · intro v w e hv hw
      obtain ⟨ha, hv⟩ := mem_raw.1 hv
      obtain ⟨_, hw⟩ := mem_raw.1 hw
      exact h.good.core.disj v w _ hv hw
  · intro x e he
    rcases hmem he with ⟨h1, rfl⟩ | ⟨c, h1, rfl, rfl⟩
    · rw [twin_twin, (hEt _ h1).1]; exact (h.ta _ h1).2.1
    · rw [(hEt _ h1).2]
  · intro e he; rw [hflag]; exact h.typ e he
  · intro e he; rw [hflag]; exact h.typ' e he
  · intro c hc; rw [hhold c hc, hraw2 hc]; simp
  · intro c hc; rw [hraw1 hc]; simp
  · intro c hc; rw [hflag, h.sign c hc]; rfl
  · intro x h1 h2
    obtain ⟨l, e⟩ := m.VIx x (by omega) h2
    rw [e]; exact h.parent x h1 h2
  · intro e he
    rw [m.E e]
    · exact h.zero e he
    · intro c _ hc
      constructor
      · rintro rfl; exact he (hA c hc)
      · rintro rfl; exact he (B.tw _ (hA c hc))
  · intro x e he
    unfold Base.own
    rw [← h.g0]
    rcases hmem he with ⟨h1, rfl⟩ | ⟨c, h1, rfl, rfl⟩
    · rw [twin_twin, B.home_le h1.2.1]; exact (h.ta _ h1).2.1
    · rw [B.home_root h1.1]; exact (h.ta _ h1).2.2.1

/-- The facts that do not change. -/
def Mid.plan (h : Prep B nb la fw kid sp) (m : Mid B la kid sp s 0) : Plan B where
  low x := (s.p.VI x).lowpoint
  la := la
  kids := sp.kids
  kh x := (sp.p.VI x).sortedDFSChildList
  kid := kid
  fw0 := fw
  nb := nb
  kl := h.kl
  kid_iff := h.kidIff
  kid_sorted := h.kidSort
  fw_range u f hf := by
    obtain ⟨_, _, a, b⟩ := h.fwA u f hf
    exact ⟨a.1, a.2, b.1, b.2⟩
  fw_anc := h.fwAnc
  fw_far := h.fwFar
  fw_own u f hf := by
    refine ⟨h.fwOwn u f hf, ?_⟩
    unfold Base.own
    rw [twin_twin, ← h.g0]; exact (h.fwA u f hf).2.1
  fw_sorted := h.fwSort
  la_le := h.laLe
  low_la x h1 h2 := m.lowLa x (by omega) h2
  low_kid c hc := by
    have := B.par_lt c hc.1 hc.2.1
    have := hc.2.2
    have := hc.2.1
    exact m.lowKid (B.par c) (by omega) (by omega) c ((h.kidIff _ c).2 ⟨hc, rfl⟩)
  consecutive := h.consecutive
  fw_arc u f hf := (h.fwA u f hf).1
  ta_arc c hc := (h.ta c hc).1
  ta_own c hc := by
    unfold Base.own
    rw [twin_twin, ← h.g0]; exact ⟨(h.ta c hc).2.2.1, (h.ta c hc).2.1⟩
  la_hit := h.laHit
  low_hit x h1 h2 := by
    rcases m.lowHit x (by omega) h2 with q | ⟨c, q1, q2⟩
    · exact .inl q
    · exact .inr ⟨c, ((h.kidIff x c).1 q1).1, ((h.kidIff x c).1 q1).2, q2⟩

theorem Mid.ready (h : Prep B nb la fw kid sp) (m : Mid B la kid sp s 0) :
    Ready (m.plan h) s (gh0 B fun c hc => (h.ta c hc).1) fw B.N := by
  have hA : ∀ c, B.Child c → B.A (B.ta c) := fun c hc => (h.ta c hc).1
  have hVx : ∀ x, ∃ a b l, s.p.VI x = { sp.p.VI x with visitedInfo := a, futurePertinentChild := b, lowpoint := l } := by
    intro x
    by_cases hx : 0 < x ∧ x ≤ B.N
    · obtain ⟨l, e⟩ := m.VIx x hx.1 hx.2
      exact ⟨_, _, _, e⟩
    · exact ⟨_, _, _, m.VI x (by omega)⟩
  have hEf : ∀ u, ∀ f ∈ fw u, s.p.g.E f = sp.p.g.E f := fun u f hf => m.E f fun c _ hc => h.fwTree u f hf c hc
  refine ⟨⟨m.rep h, h.good, ?_, ?_, fun u => List.Sublist.refl _, ?_, ?_, ?_, m.kids, ?_, fun _ _ _ => rfl, ?_, ?_, ?_, ?_, by rw [m.roots, h.roots]; rfl⟩, ?_, ?_, ?_, ?_, ?_, ?_, fun _ _ => rfl⟩
  · refine h.fwl.congr ?_ ?_ ?_
    · show s.p.g.eSize = sp.p.g.eSize; rw [m.fix.eSize, h.g0]
    · intro z _ _
      obtain ⟨a, b, l, e⟩ := hVx z
      show (s.p.VI z).fwdArcList = (sp.p.VI z).fwdArcList
      rw [e]
    · intro z y hy
      show (s.p.g.E y).link false = (sp.p.g.E y).link false ∧ (s.p.g.E y).link true = (sp.p.g.E y).link true
      rw [hEf z y hy]; exact ⟨rfl, rfl⟩
  · refine ⟨fun u e he => (h.fwA u e he).1, ?_, h.fwPair⟩
    intro u e he x
    have key : ∀ e', (e' = e ∨ e' = twin e) → e' ∉ raw (gh0 B hA) x := by
      intro e' he' hm
      obtain ⟨ha, hm⟩ := mem_raw.1 hm
      have ht : twin e' = e ∨ e' = e := by
        rcases he' with q | q
        · exact .inr q
        · left; rw [q, twin_twin]
      rcases gh0_mem hA hm with ⟨k, q⟩ | ⟨c, k, _, q⟩
      · have q : e' = twin (B.ta x) := q
        have := h.fwTree u e he x k
        rcases ht with hh | hh
        · rw [q, twin_twin] at hh; exact this.1 hh.symm
        · exact this.2 (hh ▸ q)
      · have q : e' = B.ta c := q
        have := h.fwTree u e he c k
        rcases ht with hh | hh
        · rw [q] at hh; exact this.2 hh.symm
        · exact this.1 (hh ▸ q)
    exact ⟨key e (.inl rfl), key _ (.inr rfl)⟩
  · intro u f hf
    rw [hEf u f hf]; exact (h.fwA u f hf).2.1
  · intro d
    rcases h.cover d.1 d.2 with ⟨c, hc, hd⟩ | hh
    · left
      rcases hd with hd | hd
      · refine ⟨c + B.N, ?_⟩
        rw [gh0_root hA hc, List.mem_singleton]; exact Subtype.ext hd
      · refine ⟨c, ?_⟩
        rw [gh0_child hA hc, List.mem_singleton]; exact Subtype.ext hd
    · exact .inr hh
  · refine lists_nil ?_
    intro z
    obtain ⟨a, b, l, e⟩ := hVx z
    show (s.p.VI z).pertinentRoots = 0
    rw [e]; exact (h.pe z).2
  · intro x _ _
    obtain ⟨a, b, l, e⟩ := hVx x
    rw [e]; rfl
  · intro x h1 h2
    obtain ⟨a, b, l, e⟩ := hVx x
    rw [e]; exact h.laEq x h1 h2
  · intro x h1 h2
    refine ⟨[], kid x, rfl, ?_, by simp⟩
    obtain ⟨l, e⟩ := m.VIx x (by omega) h2
    show (s.p.VI x).futurePertinentChild = _
    rw [e]; exact h.kl.head x h1 h2
  · intro u x hu hux hneed
    have hx : B.Child x := by
      obtain ⟨f, hf, hh⟩ := hneed
      have hr := h.fwA u f hf
      have hanc := h.fwAnc u f hf
      rcases hh with rfl | ⟨c, hc, hcx, hcf⟩
      · exact ⟨hr.2.2.2.1, hr.2.2.2.2, hanc.1⟩
      · have hc := (gh0_live hA).1 hc
        have hlt := B.par_lt c hc.1 hc.2.1
        have hcN := hc.2.1
        have hxf : AncEq B.par x (nb f) := by
          have : AncEq B.par x c := by rw [← hcx]; exact .up hc.2.2 (.refl _)
          exact this.trans hcf
        have h1 := B.anc_of_le hanc.eq hxf hr.2.2.2 (by omega)
        rcases h1.cases with e | e
        · omega
        · exact ⟨by omega, by omega, e.1⟩
    have hcp : (gh0 B hA).cp x = x := if_pos hx.2.1
    refine ⟨?_, ?_⟩
    · rw [hcp]; exact (gh0_live hA).2 hx
    · rw [hcp]; exact List.mem_singleton.2 rfl
  · intro _ x _ h2 _
    have hcp : (gh0 B hA).cp x = x := if_pos h2
    rw [hcp]; exact List.mem_singleton.2 rfl
  · intro c hc
    have hc := (gh0_live hA).1 hc
    have hx := m.ext c (by have := hc.1; omega) hc
    refine ⟨⟨?_, by simp [gh0], by simp [gh0], ?_, fun _ _ => rfl⟩, gh0_tight hA hc⟩
    · show List.IsChain _ [c + B.N, c, c + B.N]
      rw [List.isChain_cons_cons, List.isChain_cons_cons]
      exact ⟨⟨(hx _).1, (hx _).2⟩, ⟨(hx _).2, (hx _).1⟩, .singleton _⟩
    · show c + B.N ∉ [c]
      have := hc.2.1; have := hc.1
      rw [List.mem_singleton]; omega
  · intro x hx hl; exact absurd ((gh0_live hA).2 hx) hl
  · intro x _ _
    obtain ⟨a, b, l, e⟩ := hVx x
    show (s.p.VI x).pertinentEdge = 0
    rw [e]; exact (h.pe x).1
  · intro x h1 h2
    obtain ⟨l, e⟩ := m.VIx x (by omega) h2
    have : vis s x = B.N := by show (s.p.VI x).visitedInfo = _; rw [e]
    rw [this]; exact ⟨le_rfl, .inr rfl⟩
  · intro u hu
    rw [List.eq_nil_iff_forall_not_mem]
    intro f hf
    have := (h.fwA u f hf).2.2.1
    omega
  · intro c hc
    have hc := (gh0_live hA).1 hc
    refine ⟨[c], by simp, List.Sublist.refl _, ?_, ?_⟩
    · intro p hp
      rw [List.mem_singleton] at hp; subst hp
      exact ⟨hc.1, hc.2.1, if_pos hc.2.1⟩
    · have ht := (m.plan h).tree hc
      show List.IsChain _ [B.par c, c, B.par c]
      rw [List.isChain_cons_cons, List.isChain_cons_cons]
      exact ⟨ht, ht.symm, .singleton _⟩

/-- No component has more than one vertex yet. -/
theorem Mid.ends (h : Prep B nb la fw kid sp) (m : Mid B la kid sp s 0) (v : Nat) :
    AllEnds (m.plan h) (gh0 B fun c hc => (h.ta c hc).1) fw v :=
  fun k _ _ => .inr ⟨k, .inl rfl, fun _ hz _ => List.mem_singleton.1 hz⟩

end Verif.Embed
