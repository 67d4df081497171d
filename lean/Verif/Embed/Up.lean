import Verif.Embed.DownEnd

/-
_WalkUp registers the components between a descendant and the vertex that is processed.
-/
namespace Verif.Embed
open Verif Verif.Graph Verif.EGraph Equiv Equiv.Perm Verif.Map Function
open Verif.Props (AncEq Anc)

variable {B : Base} {Pl : Plan B} {G : Gh B.D} {s : EGraph} {fw PR : Nat → List Nat} {v : Nat}

/-- The visited information of a vertex. -/
def vis (s : EGraph) (x : Nat) : Nat := (s.p.VI x).visitedInfo

/-- The components of no child merged before `v` is reached. -/
def Early (G : Gh B.D) (v : Nat) : Prop := ∀ x, B.Child x → ¬ G.Live B.N x → v < B.par (B.par x)

/-- The state during the walks up from the ends of the arcs of `v`: the arcs `Fd` are finished, `Own` has the vertices
visited by the present walk, and the components in `pend` are those it still has to register. -/
structure UpSt (Pl : Plan B) (G : Gh B.D) (fw : Nat → List Nat) (v : Nat) (Fd : Nat → Prop) (f : Nat) (s : EGraph) (PR : Nat → List Nat)
    (Own pend : Nat → Prop) : Prop where
  st : St Pl s G fw PR (v + 1)
  rings : Rings B s G
  early : Early G v
  reg : ∀ z, ∀ c ∈ PR z, G.Live B.N c ∧ B.par c = z ∧ v ≤ z
  wit : ∀ z, ∀ c ∈ PR z, ∃ f ∈ fw v, AncEq B.par c (Pl.nb f)
  pe : ∀ x, 1 ≤ x → x ≤ B.N → pe s x ≠ 0 → pe s x ∈ fw v ∧ Pl.nb (pe s x) = x
  all : ∀ e, Fd e ∨ e = f → Embed.pe s (Pl.nb e) = e
  known : ∀ e, Fd e → ∀ c, G.Live B.N c → AncEq B.par c (Pl.nb e) → v ≤ B.par c → c ∈ PR (B.par c)
  cur : ∀ c, G.Live B.N c → AncEq B.par c (Pl.nb f) → v ≤ B.par c → c ∈ PR (B.par c) ∨ pend c
  seen : ∀ x, 1 ≤ x → x ≤ B.N → vis s x = v → ¬ Own x → ∀ c, G.Live B.N c → AncEq B.par c x → v ≤ B.par c → c ∈ PR (B.par c)
  own : ∀ x, Own x → ∀ c, G.Live B.N c → AncEq B.par c x → v ≤ B.par c → c ∈ PR (B.par c) ∨ pend c
  ends : ∀ z, ∀ c ∈ PR z, vis s (s.ext (c + B.N) false) = v ∨ vis s (s.ext (c + B.N) true) = v
  late : ∀ x, 1 ≤ x → x ≤ B.N → v ≤ vis s x
  ord : ∀ z, (PR z).Pairwise fun a b => Pl.low a < v → Pl.low b < v

/-- A walk up ends when nothing is pending. -/
theorem UpSt.finish {Fd : Nat → Prop} {f : Nat} {Own pend : Nat → Prop} (h : UpSt Pl G fw v Fd f s PR Own pend)
    (hp : ∀ c, pend c → G.Live B.N c → v ≤ B.par c → c ∈ PR (B.par c)) :
    UpSt Pl G fw v (fun e => Fd e ∨ e = f) f s PR (fun _ => False) (fun _ => False) := by
  have hcur : ∀ c, G.Live B.N c → AncEq B.par c (Pl.nb f) → v ≤ B.par c → c ∈ PR (B.par c) := by
    intro c h1 h2 h3
    rcases h.cur c h1 h2 h3 with hh | hh
    · exact hh
    · exact hp c hh h1 h3
  refine ⟨h.st, h.rings, h.early, h.reg, h.wit, h.pe, ?_, ?_, ?_, ?_, by simp, h.ends, h.late, h.ord⟩
  · intro e he
    exact h.all e (by rcases he with he | he; exacts [he, .inr he])
  · rintro e (he | rfl) c h1 h2 h3
    · exact h.known e he c h1 h2 h3
    · exact hcur c h1 h2 h3
  · intro c h1 h2 h3; exact .inl (hcur c h1 h2 h3)
  · intro x h1 h2 h3 _ c h4 h5 h6
    by_cases ho : Own x
    · rcases h.own x ho c h4 h5 h6 with hh | hh
      · exact hh
      · exact hp c hh h4 h6
    · exact h.seen x h1 h2 h3 ho c h4 h5 h6

/-- A vertex of the component is marked. -/
theorem UpSt.see {Fd : Nat → Prop} {f : Nat} {Own : Nat → Prop} {c x : Nat}
    (h : UpSt Pl G fw v Fd f s PR Own fun k => AncEq B.par k c) (hx : 1 ≤ x ∧ x ≤ B.N) (hcx : G.cp x = c) :
    ∃ s', s.see x v = some s' ∧ UpSt Pl G fw v Fd f s' PR (fun y => Own y ∨ y = x) (fun k => AncEq B.par k c) ∧ s'.ext = s.ext ∧
      (∀ y, vis s' y = if y = x then v else vis s y) ∧ s'.p.g = s.p.g := by
  obtain ⟨s', hs', he⟩ : ∃ s', s.see x v = some s' ∧ s.setP { s.p with VI := update s.p.VI x { s.p.VI x with visitedInfo := v } } = s' := by
    refine ⟨_, ?_, rfl⟩
    have hxN : x < 1 + s.p.g.N := by rw [h.st.rep.N]; omega
    unfold EGraph.see PGraph.rdVI PGraph.wrVI
    simp only [if_pos hxN, Option.bind_eq_bind, Option.bind_some, pure]
  refine ⟨s', hs', ?_⟩
  have hVI : ∀ y, s'.p.VI y = if y = x then { s.p.VI y with visitedInfo := v } else s.p.VI y := by
    intro y
    rw [← he]
    show update s.p.VI x _ y = _
    rw [update_apply]
    by_cases hy : y = x
    · rw [if_pos hy, if_pos hy, hy]
    · rw [if_neg hy, if_neg hy]
  have hext : s'.ext = s.ext := by rw [← he]; rfl
  have hg : s'.p.g = s.p.g := by rw [← he]; rfl
  have hvis : ∀ y, vis s' y = if y = x then v else vis s y := by
    intro y; unfold vis; rw [hVI]; split <;> rfl
  have hpe : ∀ y, Embed.pe s' y = Embed.pe s y := by
    intro y; unfold Embed.pe; rw [hVI]; split <;> rfl
  have hpr : ∀ y, pr s' y = pr s y := by
    intro y; unfold pr; rw [hVI]; split <;> rfl
  have hfpc : ∀ y, fpc s' y = fpc s y := by
    intro y; unfold fpc; rw [hVI]; split <;> rfl
  refine ⟨⟨?_, h.rings.congr hext, h.early, h.reg, h.wit, ?_, ?_, h.known, h.cur, ?_, ?_, ?_, ?_, h.ord⟩, hext, hvis, hg⟩
  · refine h.st.congr s.p.g.stack hg (by rw [← he]; rfl) (by rw [← he]; rfl) ?_ ?_ ?_
    · constructor <;> intro y <;> rw [hVI] <;> split <;> rfl
    · have : s'.roots = s.roots := by rw [← he]; rfl
      rw [this]
      exact h.st.prl.congr rfl (fun z _ _ => hpr z) fun _ _ _ => ⟨rfl, rfl⟩
    · intro y h1 h2; rw [hfpc]; exact h.st.fp y h1 h2
  · intro y h1 h2; rw [hpe]; exact h.pe y h1 h2
  · intro e he; rw [hpe]; exact h.all e he
  · intro y h1 h2 h3 h4 k h5 h6 h7
    have hyx : y ≠ x := fun hh => h4 (.inr hh)
    rw [hvis, if_neg hyx] at h3
    exact h.seen y h1 h2 h3 (fun hh => h4 (.inl hh)) k h5 h6 h7
  · rintro y (hy | rfl) k h5 h6 h7
    · exact h.own y hy k h5 h6 h7
    · right
      have := live_anc h.st.good h5 h6 hx.1 hx.2
      rwa [hcx] at this
  · intro z k hk
    rw [hext]
    refine (h.ends z k hk).imp ?_ ?_ <;> (intro hh; rw [hvis]; split <;> first | rfl | exact hh)
  · intro y h1 h2
    rw [hvis]; split
    · exact le_rfl
    · exact h.late y h1 h2

theorem append_lt {c : LC.Coll} {l x : Nat} {r : LC.Coll × Nat} (h : LC.append c l x = some r) : x < c.N := by
  by_contra hh
  unfold LC.append LC.single LC.linkBefore at h
  have h1 : ∀ y, LC.wrNext c x y = none := fun y => if_neg hh
  split at h <;> simp [h1] at h

theorem prepend_lt {c : LC.Coll} {l x : Nat} {r : LC.Coll × Nat} (h : LC.prepend c l x = some r) : x < c.N := by
  by_contra hh
  unfold LC.prepend LC.single LC.linkBefore at h
  have h1 : ∀ y, LC.wrNext c x y = none := fun y => if_neg hh
  split at h <;> simp [h1] at h

theorem addRoot_spec (h : Lists s.roots (pr s) B.N PR) (hN : s.p.g.N = B.N) {z c : Nat} (hz : 1 ≤ z ∧ z ≤ B.N) (hc : 1 ≤ c ∧ c ≤ B.N)
    (hn : ∀ w, c ∉ PR w) (hrn : s.roots.N = 1 + B.N) : ∃ s', s.addRoot v z (c + B.N) = some s' ∧ s'.roots.N = s.roots.N ∧
    ∃ PR', Lists s'.roots (pr s') B.N PR' ∧ (∀ y k, k ∈ PR' y ↔ k ∈ PR y ∨ y = z ∧ k = c) ∧ s'.p.g = s.p.g ∧ s'.ext = s.ext ∧ s'.kids = s.kids ∧
      VKeep s.p s'.p ∧ (∀ x, fpc s' x = fpc s x) ∧ ∀ L : Nat → Nat, (s.p.VI c).lowpoint = L c →
        (∀ y, (PR y).Pairwise fun a b => L a < v → L b < v) → ∀ y, (PR' y).Pairwise fun a b => L a < v → L b < v := by
  generalize he : s.addRoot v z (c + B.N) = o
  unfold EGraph.addRoot at he
  have hch : s.childOf (c + B.N) = some c := by
    unfold EGraph.childOf; rw [hN, if_pos (by omega)]; simp
  rw [hch] at he
  simp only [Option.bind_eq_bind, Option.bind_some] at he
  obtain ⟨low, hlo'⟩ : ∃ low, (s.p.VI c).lowpoint = low := ⟨_, rfl⟩
  have hlo : s.p.getLowpoint c = some low := by
    unfold PGraph.getLowpoint
    rw [rdVI_ok (by rw [hN]; omega)]
    exact congrArg some hlo'
  obtain ⟨r, hr⟩ : ∃ r, s.p.rdVI z = some r := ⟨_, rdVI_ok (by rw [hN]; omega)⟩
  have hr' := rdVI_some hr
  rw [hlo] at he
  simp only [Option.bind_some] at he
  rw [hr] at he
  simp only [Option.bind_some] at he
  have hpz : r.pertinentRoots = pr s z := by rw [← hr']; rfl
  obtain ⟨rs, h', PR', hrsN, hL, hrs, hm, hord⟩ : ∃ rs h' PR', rs.N = s.roots.N ∧ Lists rs (update (pr s) z h') B.N PR' ∧
      (if low < v then LC.append s.roots r.pertinentRoots c else LC.prepend s.roots r.pertinentRoots c) = some (rs, h') ∧
      (∀ y k, k ∈ PR' y ↔ k ∈ PR y ∨ y = z ∧ k = c) ∧ ∀ L : Nat → Nat, (s.p.VI c).lowpoint = L c →
        (∀ y, (PR y).Pairwise fun a b => L a < v → L b < v) → ∀ y, (PR' y).Pairwise fun a b => L a < v → L b < v := by
    rw [hpz]
    by_cases hlow : low < v
    · rw [if_pos hlow]
      obtain ⟨c', h', e1, e2, e3⟩ := h.append hz.1 hz.2 ⟨hc.1, by rw [hrn]; omega⟩ hn
      refine ⟨c', h', _, e2, e3, e1, ?_, ?_⟩
      · intro y k
        by_cases hy : y = z
        · subst hy; rw [update_self]; simp
        · rw [update_of_ne hy]; simp [hy]
      · intro L hLc ho y
        by_cases hy : y = z
        · subst hy
          rw [update_self, List.pairwise_append]
          refine ⟨ho y, by simp, ?_⟩
          intro a _ b hb _
          simp only [List.mem_singleton] at hb
          rw [hb, ← hLc, hlo']; exact hlow
        · rw [update_of_ne hy]; exact ho y
    · rw [if_neg hlow]
      obtain ⟨c', h', e1, e2, e3⟩ := h.prepend hz.1 hz.2 ⟨hc.1, by rw [hrn]; omega⟩ hn
      refine ⟨c', h', _, e2, e3, e1, ?_, ?_⟩
      · intro y k
        by_cases hy : y = z
        · subst hy; rw [update_self]; simp [or_comm]
        · rw [update_of_ne hy]; simp [hy]
      · intro L hLc ho y
        by_cases hy : y = z
        · subst hy
          rw [update_self, List.pairwise_cons]
          refine ⟨?_, ho y⟩
          intro a _ hh
          rw [← hLc, hlo'] at hh; exact absurd hh hlow
        · rw [update_of_ne hy]; exact ho y
  have hrest : ((s.p.wrVI z { r with pertinentRoots := h' }).bind fun p => some { s with p := p, roots := rs }) = o := by
    by_cases hlow : low < v
    · rw [if_pos hlow] at he hrs
      rw [hrs] at he; exact he
    · rw [if_neg hlow] at he hrs
      rw [hrs] at he; exact he
  have hp : s.p.wrVI z { r with pertinentRoots := h' } = some { s.p with VI := update s.p.VI z { s.p.VI z with pertinentRoots := h' } } := by
    rw [← hr']; exact if_pos (by rw [hN]; omega)
  rw [hp] at hrest
  simp only [Option.bind_some] at hrest
  obtain ⟨s', hs'⟩ : ∃ s', o = some s' := ⟨_, hrest.symm⟩
  rw [hs', Option.some.injEq] at hrest
  refine ⟨s', hs', by rw [← hrest]; exact hrsN, ?_⟩
  have hVI : ∀ y, s'.p.VI y = if y = z then { s.p.VI y with pertinentRoots := h' } else s.p.VI y := by
    intro y
    rw [← hrest]
    show update s.p.VI z _ y = _
    rw [update_apply]
    by_cases hy : y = z
    · rw [if_pos hy, if_pos hy, hy]
    · rw [if_neg hy, if_neg hy]
  refine ⟨PR', ?_, hm, by rw [← hrest], by rw [← hrest], by rw [← hrest], ?_, ?_, hord⟩
  · have e1 : s'.roots = rs := by rw [← hrest]
    have e2 : pr s' = update (pr s) z h' := by
      funext y
      unfold pr
      rw [hVI, update_apply]; split <;> rfl
    rw [e1, e2]; exact hL
  · constructor <;> intro y <;> rw [hVI] <;> split <;> rfl
  · intro y; unfold fpc; rw [hVI]; split <;> rfl

/-- The position of the walk up in component `c`. -/
structure UpAt (G : Gh B.D) (s : EGraph) (Own : Nat → Prop) (c zig zag : Nat) (zigPrev zagPrev : Bool) : Prop where
  live : G.Live B.N c
  pos : ∃ Y o A M Q, Ring s (c + B.N) Y o ∧ (∀ x, x ∈ Y ↔ x ∈ G.X c) ∧ (zig = zag ∧ Y = A ++ zig :: Q ∧ M = [] ∨ Y = A ++ zag :: (M ++ zig :: Q)) ∧
    zigPrev = (!o zig) ∧ zagPrev = o zag ∧ ∀ x, Own x → G.cp x = c → x ∈ M
  own : ∀ x, Own x → c ≤ G.cp x

/-- Starting in the component of a vertex on its outer face. -/
theorem UpAt.start {Own : Nat → Prop} {z : Nat} (hr : Rings B s G) (hl : G.Live B.N (G.cp z)) (hz : z ∈ G.X (G.cp z))
    (hown : ∀ x, Own x → G.cp z < G.cp x) : UpAt G s Own (G.cp z) z z true false := by
  refine ⟨hl, ?_, fun x hx => (hown x hx).le⟩
  have hring := hr _ hl
  have hno : ∀ x, Own x → G.cp x = G.cp z → x ∈ ([] : List Nat) := fun x hx hh => by
    have := hown x hx; omega
  cases ho : G.o z
  · obtain ⟨A, Q, hAQ⟩ := List.append_of_mem hz
    exact ⟨G.X (G.cp z), G.o, A, [], Q, hring.toRing, fun _ => Iff.rfl, .inl ⟨rfl, hAQ, rfl⟩, by simp [ho], ho.symm, hno⟩
  · obtain ⟨A, Q, hAQ⟩ := List.append_of_mem (List.mem_reverse.2 hz)
    exact ⟨(G.X (G.cp z)).reverse, fun x => !G.o x, A, [], Q, hring.reverse (fun _ _ => rfl), by simp, .inl ⟨rfl, hAQ, rfl⟩, by simp [ho],
      by simp [ho], hno⟩

end Verif.Embed
