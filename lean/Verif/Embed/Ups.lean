import Verif.Embed.UpLoop

/-
_WalkUp and the walks up of a step.
-/
namespace Verif.Embed
open Verif Verif.Graph Verif.EGraph Equiv Equiv.Perm Verif.Map Function
open Verif.Props (AncEq Anc)

variable {B : Base} {Pl : Plan B} {G : Gh B.D} {s : EGraph} {fw PR : Nat → List Nat} {v : Nat}

/-- The component of a vertex below `v` is below `v`. -/
theorem Early.below (he : Early G v) (hg : Good B.N B.par B.α G) {z : Nat} (hz : 1 ≤ z ∧ z ≤ B.N) (hv : AncEq B.par v z) (hne : v ≠ z) :
    AncEq B.par v (B.par (G.cp z)) := by
  obtain ⟨k, k1, k2, k3⟩ := AncEq.child hv hne
  have k0 : k ≠ 0 := AncEq.ne_zero k3 (by omega)
  have kz := B.anc_le k3 hz.1 hz.2
  have hk : B.Child k := ⟨by omega, by omega, k2⟩
  have hlt := B.par_lt k hk.1 hk.2.1
  have hl : G.Live B.N k := by
    by_contra hh
    have h1 := he k hk hh
    rw [k1] at h1
    have h2 := B.par_lt v (by omega) (by omega)
    omega
  rcases (live_anc hg hl k3 hz.1 hz.2).cases with h1 | ⟨_, h1⟩
  · rw [← h1, k1]; exact .refl _
  · refine AncEq.trans ?_ h1
    exact .up k2 (by rw [k1]; exact .refl _)

/-- Component `c` is registered and the walk goes to its parent. -/
theorem UpSt.up {Fd : Nat → Prop} {f : Nat} {Own pend' : Nat → Prop} {c : Nat}
    (h : UpSt Pl G fw v Fd f s PR Own fun k => AncEq B.par k c) (hl : G.Live B.N c) (hcf : AncEq B.par c (Pl.nb f)) (hf : f ∈ fw v)
    (hv : v ≤ B.par c) (hn : ∀ w, c ∉ PR w) (hvis : vis s (s.ext (c + B.N) false) = v ∨ vis s (s.ext (c + B.N) true) = v)
    (hp : ∀ k, G.Live B.N k → v ≤ B.par k → AncEq B.par k (B.par c) → pend' k) :
    ∃ s', s.addRoot v (B.par c) (c + B.N) = some s' ∧ (∀ x, vis s' x = vis s x) ∧ ∃ PR', UpSt Pl G fw v Fd f s' PR' Own pend' := by
  obtain ⟨hcN, hc0, _⟩ := h.st.good.root c hl
  have hlt := B.par_lt c hl.1 hcN
  obtain ⟨s', hs', e0, PR', e1, e2, e3, e4, e5, e6, e7, e8⟩ := addRoot_spec (v := v) h.st.prl h.st.rep.N (z := B.par c) (by omega) ⟨hl.1, hcN⟩ hn h.st.rn
  have hpend : ∀ k, G.Live B.N k → v ≤ B.par k → (k ∈ PR (B.par k) ∨ AncEq B.par k c) → k ∈ PR' (B.par k) ∨ pend' k := by
    intro k k1 k2 hk
    rcases hk with hk | hk
    · exact .inl ((e2 _ _).2 (.inl hk))
    · rcases hk.cases with rfl | ⟨_, hk⟩
      · exact .inl ((e2 _ _).2 (.inr ⟨rfl, rfl⟩))
      · exact .inr (hp k k1 k2 hk)
  have hpe : ∀ x, Embed.pe s' x = Embed.pe s x := e6.pe
  have hvs : ∀ x, vis s' x = vis s x := e6.vis
  refine ⟨s', hs', hvs, PR', ?_, h.rings.congr e4, h.early, ?_, ?_, ?_, ?_, ?_, ?_, ?_, ?_, ?_, ?_,
    e8 Pl.low (h.st.low c hl.1 hcN) h.ord⟩
  · exact h.st.congr s.p.g.stack e3 e5 e0 ⟨e6.parent, e6.la, e6.low, e6.kids, e6.fwd⟩ e1 fun x h1 h2 => by rw [e7]; exact h.st.fp x h1 h2
  · intro z k hk
    rcases (e2 z k).1 hk with hk | ⟨rfl, rfl⟩
    · exact h.reg z k hk
    · exact ⟨hl, rfl, hv⟩
  · intro z k hk
    rcases (e2 z k).1 hk with hk | ⟨rfl, rfl⟩
    · exact h.wit z k hk
    · exact ⟨f, hf, hcf⟩
  · intro x h1 h2; rw [hpe]; exact h.pe x h1 h2
  · intro e he; rw [hpe]; exact h.all e he
  · intro e he k k1 k2 k3; exact (e2 _ _).2 (.inl (h.known e he k k1 k2 k3))
  · intro k k1 k2 k3; exact hpend k k1 k3 (h.cur k k1 k2 k3)
  · intro x h1 h2 h3 h4 k k1 k2 k3
    rw [hvs] at h3
    exact (e2 _ _).2 (.inl (h.seen x h1 h2 h3 h4 k k1 k2 k3))
  · intro x hx k k1 k2 k3; exact hpend k k1 k3 (h.own x hx k k1 k2 k3)
  · intro z k hk
    rw [e4, hvs, hvs]
    rcases (e2 z k).1 hk with hk | ⟨rfl, rfl⟩
    · exact h.ends z k hk
    · exact hvis
  · intro x h1 h2; rw [hvs]; exact h.late x h1 h2

theorem primaryOf_eq (r : Rep B s G) {c : Nat} (hc : 1 ≤ c ∧ c ≤ B.N) : s.primaryOf (c + B.N) = some (B.par c) := by
  unfold EGraph.primaryOf EGraph.childOf
  rw [r.N, if_pos (by omega)]
  simp only [Option.bind_eq_bind, Option.bind_some]
  unfold PGraph.getParent
  have : s.p.rdVI (c + B.N - B.N) = some (s.p.VI c) := by
    rw [Nat.add_sub_cancel]; exact if_pos (by rw [r.N]; omega)
  rw [this]
  simp only [Option.bind_eq_bind, Option.bind_some, pure, Option.some.injEq]
  exact r.parent c hc.1 hc.2

theorem upLoop_spec {Fd : Nat → Prop} {f : Nat} (hf : f ∈ fw v) : ∀ (fuel : Nat) (s : EGraph) (PR : Nat → List Nat) (Own : Nat → Prop)
    (c zig zag : Nat) (a b : Bool), UpSt Pl G fw v Fd f s PR Own (fun k => AncEq B.par k c) → UpAt G s Own c zig zag a b →
    AncEq B.par c (Pl.nb f) → AncEq B.par v (B.par c) → unseen B s v + 1 < fuel →
    ∃ s', upLoop v fuel s zig zag a b = some s' ∧ ∃ PR', UpSt Pl G fw v (fun e => Fd e ∨ e = f) f s' PR' (fun _ => False) (fun _ => False) := by
  intro fuel
  induction fuel with
  | zero => intro s PR Own c zig zag a b _ _ _ _ hm; omega
  | succ fuel ih =>
    intro s PR Own c zig zag a b h hat hcf hvc hm
    generalize he : upLoop v (fuel + 1) s zig zag a b = o
    have hg := h.st.good
    obtain ⟨hcN, hc0, hccp⟩ := hg.root c hat.live
    have hc1 := hat.live.1
    have hlt := B.par_lt c hc1 hcN
    have hvle : v ≤ B.par c := B.anc_le hvc (by omega) (by omega)
    have hz1 := hat.here hg
    have hz2 := hat.swap.here hg
    have hcz : c ≤ zig := by
      have := hg.cp_le B.par_lt hz1.1 hz1.2.1
      omega
    unfold upLoop at he
    rw [if_neg (by omega)] at he
    obtain ⟨go, hgo, hcase⟩ := upTest_spec (v := v) hg h.st.rep hat
    rw [hgo] at he
    simp only [Option.bind_eq_bind, Option.bind_some] at he
    rcases hcase with ⟨rfl, y, y1, y2, y3, y4, y5⟩ | ⟨rfl, hu1, hu2, d, hd⟩ | ⟨rfl, hn1, hn2, hn3⟩
    · simp only [pure] at he
      subst he
      refine ⟨_, rfl, PR, h.finish ?_⟩
      intro k hk k1 k2
      have hcy : AncEq B.par c y := by rw [← y3]; exact hg.anc B.par_lt y y1 y2
      exact h.seen y y1 y2 y4 y5 k k1 (AncEq.trans hk hcy) k2
    · simp only at he
      obtain ⟨s1, hs1, h1, x1, v1, g1⟩ := h.see ⟨hz1.1, hz1.2.1⟩ hz1.2.2.1
      obtain ⟨s2, hs2, h2, x2, v2, g2⟩ := h1.see ⟨hz2.1, hz2.2.1⟩ hz2.2.2.1
      rw [hs1] at he
      simp only [Option.bind_some] at he
      rw [hs2] at he
      simp only [Option.bind_some] at he
      rw [primaryOf_eq h2.st.rep ⟨hc1, hcN⟩] at he
      simp only [Option.bind_some] at he
      have hk : ∀ y, vis s y = v → vis s2 y = v := by
        intro y hy; rw [v2, v1]; split_ifs <;> first | rfl | exact hy
      have hlow : unseen B s2 v < unseen B s v := by
        have hud : vis s (s.ext (c + B.N) d) ≠ v := by cases d <;> assumption
        rcases hd with hd | hd <;> rw [hd] at hud
        · refine unseen_lt ⟨hz1.1, hz1.2.1⟩ hud ?_ hk
          rw [v2]; split_ifs; rfl; rw [v1, if_pos rfl]
        · refine unseen_lt ⟨hz2.1, hz2.2.1⟩ hud ?_ hk
          rw [v2, if_pos rfl]
      have hn : ∀ w, c ∉ PR w := by
        intro w hw
        rcases h.ends w c hw with hh | hh
        · exact hu1 hh
        · exact hu2 hh
      have hvis2 : vis s2 (s2.ext (c + B.N) false) = v ∨ vis s2 (s2.ext (c + B.N) true) = v := by
        have : vis s2 (s2.ext (c + B.N) d) = v := by
          rw [x2, x1, v2]
          split
          · rfl
          · next hq =>
            rw [v1]
            rcases hd with hd | hd
            · rw [if_pos hd]
            · exact absurd hd hq
        cases d
        · exact .inl this
        · exact .inr this
      by_cases hzv : B.par c = v
      · obtain ⟨s3, hs3, _, PR', h3⟩ := h2.up (pend' := fun _ => False) hat.live hcf hf hvle hn hvis2 (by
          intro k k1 k2 k3
          rw [hzv] at k3
          have hk := hg.root k k1
          have := B.par_lt k k1.1 hk.1
          have := B.anc_le k3 (by omega) (by omega)
          omega)
        rw [hs3] at he
        simp only [Option.bind_some] at he
        cases fuel with
        | zero => omega
        | succ fuel =>
          unfold upLoop at he
          rw [if_pos hzv] at he
          subst he
          exact ⟨_, rfl, PR', h3.finish (fun k hk => hk.elim)⟩
      · have hneed : Need Pl G fw v (B.par c) := ⟨f, hf, .inr ⟨c, hat.live, rfl, hcf⟩⟩
        obtain ⟨l1, l2⟩ := h.st.act v (B.par c) (by omega) (by omega) hneed
        have hcp' := hg.cp_le B.par_lt (x := B.par c) (by omega) (by omega)
        obtain ⟨s3, hs3, hv3, PR', h3⟩ := h2.up (pend' := fun k => AncEq B.par k (G.cp (B.par c))) hat.live hcf hf hvle hn hvis2 (by
          intro k k1 k2 k3
          exact live_anc hg k1 k3 (by omega) (by omega))
        rw [hs3] at he
        simp only [Option.bind_some] at he
        subst he
        have hsame : unseen B s3 v = unseen B s2 v := by unfold unseen; simp only [hv3]
        refine ih s3 PR' _ _ _ _ _ _ h3 (UpAt.start h3.rings l1 l2 ?_) ?_ ?_ (by omega)
        · rintro x ((hx | rfl) | rfl)
          · have := hat.own x hx; omega
          · omega
          · omega
        · refine AncEq.trans (hg.anc B.par_lt (B.par c) (by omega) (by omega)) (AncEq.trans ?_ hcf)
          exact .up hc0 (.refl _)
        · exact h.early.below hg (by omega) hvc (fun hh => hzv hh.symm)
    · simp only at he
      obtain ⟨s1, hs1, h1, x1, v1, g1⟩ := h.see ⟨hz1.1, hz1.2.1⟩ hz1.2.2.1
      obtain ⟨s2, hs2, h2, x2, v2, g2⟩ := h1.see ⟨hz2.1, hz2.2.1⟩ hz2.2.2.1
      rw [hs1] at he
      simp only [Option.bind_some] at he
      rw [hs2] at he
      simp only [Option.bind_some] at he
      have hv' := h2.st.rep.vSize
      rw [getExt_eq (by omega), x2, x1] at he
      simp only [Option.bind_some] at he
      rw [getExt_eq (by omega), x2, x1] at he
      simp only [Option.bind_some] at he
      have hat2 := hat.on hg hn1 hn2 (s' := s2) (x2.trans x1)
      have hlow : unseen B s2 v < unseen B s v := by
        refine unseen_lt ⟨hz1.1, hz1.2.1⟩ hn3 ?_ ?_
        · rw [v2]; split_ifs; rfl; rw [v1, if_pos rfl]
        · intro y hy; rw [v2, v1]; split_ifs <;> first | rfl | exact hy
      subst he
      exact ih s2 PR _ _ _ _ _ _ h2 hat2 hcf hvc (by omega)

/-- The state between walks up: the arcs of `Fd` are finished. -/
structure Ups (Pl : Plan B) (G : Gh B.D) (fw : Nat → List Nat) (v : Nat) (Fd : Nat → Prop) (s : EGraph) (PR : Nat → List Nat) : Prop where
  st : St Pl s G fw PR (v + 1)
  rings : Rings B s G
  early : Early G v
  reg : ∀ z, ∀ c ∈ PR z, G.Live B.N c ∧ B.par c = z ∧ v ≤ z
  wit : ∀ z, ∀ c ∈ PR z, ∃ f ∈ fw v, AncEq B.par c (Pl.nb f)
  pe : ∀ x, 1 ≤ x → x ≤ B.N → pe s x ≠ 0 → pe s x ∈ fw v ∧ Pl.nb (pe s x) = x
  all : ∀ e, Fd e → Embed.pe s (Pl.nb e) = e
  known : ∀ e, Fd e → ∀ c, G.Live B.N c → AncEq B.par c (Pl.nb e) → v ≤ B.par c → c ∈ PR (B.par c)
  seen : ∀ x, 1 ≤ x → x ≤ B.N → vis s x = v → ∀ c, G.Live B.N c → AncEq B.par c x → v ≤ B.par c → c ∈ PR (B.par c)
  ends : ∀ z, ∀ c ∈ PR z, vis s (s.ext (c + B.N) false) = v ∨ vis s (s.ext (c + B.N) true) = v
  late : ∀ x, 1 ≤ x → x ≤ B.N → v ≤ vis s x
  ord : ∀ z, (PR z).Pairwise fun a b => Pl.low a < v → Pl.low b < v

theorem UpSt.ups {Fd : Nat → Prop} {f : Nat} (h : UpSt Pl G fw v Fd f s PR (fun _ => False) (fun _ => False)) : Ups Pl G fw v Fd s PR :=
  ⟨h.st, h.rings, h.early, h.reg, h.wit, h.pe, fun e he => h.all e (.inl he), h.known,
    fun x h1 h2 h3 => h.seen x h1 h2 h3 (by simp), h.ends, h.late, h.ord⟩

/-- A walk up. -/
theorem walkUp_spec {Fd : Nat → Prop} {f : Nat} (hf : f ∈ fw v) (hfd : ¬ Fd f) (hFd : ∀ e, Fd e → e ∈ fw v)
    (h : Ups Pl G fw v Fd s PR) : ∃ s', s.walkUp v f = some s' ∧
    ∃ PR', Ups Pl G fw v (fun e => Fd e ∨ e = f) s' PR' := by
  have hg := h.st.good
  have hA := h.st.wait.arc v f hf
  have hf0 := (h.st.sub v).subset hf
  obtain ⟨r1, r2, r3, r4⟩ := Pl.fw_range v f hf0
  obtain ⟨a1, a2⟩ := Pl.fw_anc v f hf0
  have hsort : (fw v).Pairwise fun f f' => Pl.nb f < Pl.nb f' := (Pl.fw_sorted v).sublist (h.st.sub v)
  have hinj : ∀ e ∈ fw v, Pl.nb e = Pl.nb f → e = f := by
    intro e he hh
    by_contra hne
    obtain ⟨A, T, hAT⟩ := List.append_of_mem he
    rw [hAT, List.pairwise_append, List.pairwise_cons] at hsort
    have hf' := hf
    rw [hAT] at hf'
    rcases List.mem_append.1 hf' with hf' | hf'
    · have := hsort.2.2 f hf' e (by simp); omega
    · rcases List.mem_cons.1 hf' with rfl | hf'
      · exact hne rfl
      · have := hsort.2.1.1 f hf'; omega
  have hvW : AncEq B.par v (Pl.nb f) := .up a1 a2
  have hlt : v < Pl.nb f := by
    have := B.par_lt _ r3 r4
    have := B.anc_le a2 (by omega) (by omega)
    omega
  obtain ⟨l1, l2⟩ := h.st.act v (Pl.nb f) (by omega) hlt ⟨f, hf, .inl rfl⟩
  generalize he : s.walkUp v f = o
  unfold EGraph.walkUp at he
  have hNb : Pl.nb f < 1 + s.p.g.N := by rw [h.st.rep.N]; omega
  rw [getNbr_eq (h.st.rep.arc hA).2, h.st.nbr v f hf] at he
  simp only [Option.bind_eq_bind, Option.bind_some] at he
  rw [rdVI_ok hNb] at he
  simp only [Option.bind_some] at he
  obtain ⟨p, hp, hp'⟩ : ∃ p, s.p.wrVI (Pl.nb f) { s.p.VI (Pl.nb f) with pertinentEdge := f } = some p ∧
      p = { s.p with VI := update s.p.VI (Pl.nb f) { s.p.VI (Pl.nb f) with pertinentEdge := f } } := ⟨_, if_pos hNb, rfl⟩
  rw [hp] at he
  simp only [Option.bind_some] at he
  have hVI : ∀ y, (s.setP p).p.VI y = if y = Pl.nb f then { s.p.VI y with pertinentEdge := f } else s.p.VI y := by
    intro y
    rw [hp']
    show update s.p.VI (Pl.nb f) _ y = _
    rw [update_apply]
    by_cases hy : y = Pl.nb f
    · rw [if_pos hy, if_pos hy, hy]
    · rw [if_neg hy, if_neg hy]
  have hpg : (s.setP p).p.g = s.p.g := by rw [hp']; rfl
  have hvis : ∀ y, vis (s.setP p) y = vis s y := by
    intro y; unfold vis; rw [hVI]; split <;> rfl
  have hpe : ∀ y, Embed.pe (s.setP p) y = if y = Pl.nb f then f else Embed.pe s y := by
    intro y; unfold Embed.pe; rw [hVI]; split <;> rfl
  have hpr : ∀ y, pr (s.setP p) y = pr s y := by
    intro y; unfold pr; rw [hVI]; split <;> rfl
  have hfpc : ∀ y, fpc (s.setP p) y = fpc s y := by
    intro y; unfold fpc; rw [hVI]; split <;> rfl
  have hup : UpSt Pl G fw v Fd f (s.setP p) PR (fun _ => False) (fun k => AncEq B.par k (G.cp (Pl.nb f))) := by
    refine ⟨?_, h.rings.congr rfl, h.early, h.reg, h.wit, ?_, ?_, h.known, ?_, ?_, by simp, ?_, ?_, h.ord⟩
    · refine h.st.congr s.p.g.stack hpg rfl rfl ?_ ?_ ?_
      · constructor <;> intro y <;> rw [hVI] <;> split <;> rfl
      · exact h.st.prl.congr rfl (fun z _ _ => hpr z) fun _ _ _ => ⟨rfl, rfl⟩
      · intro y h1 h2; rw [hfpc]; exact h.st.fp y h1 h2
    · intro y h1 h2
      rw [hpe]
      by_cases hy : y = Pl.nb f
      · rw [if_pos hy]; exact fun _ => ⟨hf, hy.symm⟩
      · rw [if_neg hy]; exact h.pe y h1 h2
    · rintro e (he' | rfl)
      · rw [hpe, if_neg]
        · exact h.all e he'
        · intro hh
          have := hinj e (hFd e he') hh
          rw [this] at he'; exact hfd he'
      · rw [hpe, if_pos rfl]
    · intro k k1 k2 k3
      exact .inr (live_anc hg k1 k2 r3 r4)
    · intro y h1 h2 h3 _
      rw [hvis] at h3
      exact h.seen y h1 h2 h3
    · intro z k hk
      rw [hvis, hvis]
      exact h.ends z k hk
    · intro y h1 h2; rw [hvis]; exact h.late y h1 h2
  obtain ⟨s', hs', PR', h'⟩ := upLoop_spec hf (s.p.g.N + 2) _ _ _ _ _ _ _ _ hup (UpAt.start hup.rings l1 l2 (by simp))
    (hg.anc B.par_lt _ r3 r4) (h.early.below hg ⟨r3, r4⟩ hvW (by omega)) (by
      rw [h.st.rep.N]
      have := unseen_le (B := B) (s := s.setP p) (v := v)
      omega)
  exact ⟨s', he.symm.trans hs', PR', h'.ups⟩

theorem walkUps_spec : ∀ (fuel : Nat) (s : EGraph) (PR : Nat → List Nat) (A T : List Nat), 1 ≤ v ∧ v ≤ B.N → fw v = A ++ T → T.length ≤ fuel →
    Ups Pl G fw v (· ∈ A) s PR → ∃ s', walkUps v fuel s (T.headD 0) = some s' ∧ ∃ PR', Ups Pl G fw v (· ∈ fw v) s' PR' := by
  intro fuel
  induction fuel with
  | zero =>
    intro s PR A T hv hAT hl h
    have : T = [] := List.length_eq_zero_iff.1 (by omega)
    subst this
    rw [List.append_nil] at hAT
    rw [hAT]; exact ⟨s, by simp [walkUps], PR, h⟩
  | succ fuel ih =>
    intro s PR A T hv hAT hl h
    generalize he : walkUps v (fuel + 1) s (T.headD 0) = o
    unfold walkUps at he
    cases T with
    | nil =>
      simp only [List.headD_nil, if_true] at he
      subst he
      rw [List.append_nil] at hAT
      rw [hAT]; exact ⟨_, rfl, PR, h⟩
    | cons a T =>
      have ha := (h.st.fwl.bound v a (by rw [hAT]; simp)).1
      have ha0 : ¬ (a :: T).headD 0 = 0 := by simp; omega
      rw [if_neg ha0] at he
      simp only [List.headD_cons] at he
      have hnd := h.st.fwl.nodup v
      rw [hAT] at hnd
      obtain ⟨s1, hs1, PR1, h1⟩ := walkUp_spec (f := a) (by rw [hAT]; simp) (fun hh => (List.nodup_append.1 hnd).2.2 a hh a (by simp) rfl)
        (fun e he => by rw [hAT]; simp [he]) h
      obtain ⟨q1, q2⟩ := h1.st.fwl.next hv hAT
      rw [hs1] at he
      simp only [Option.bind_eq_bind, Option.bind_some] at he
      rw [getAdj_eq q1] at he
      simp only [Option.bind_some] at he
      rw [rdVI_ok (by rw [h1.st.rep.N]; omega)] at he
      simp only [Option.bind_some] at he
      have q2' : (if (s1.p.g.E a).link false = fwh s1.p v then 0 else (s1.p.g.E a).link false) = T.headD 0 := q2
      have he' : walkUps v fuel s1 (if (s1.p.g.E a).link false = fwh s1.p v then 0 else (s1.p.g.E a).link false) = o := he
      rw [q2'] at he'
      subst he'
      refine ih s1 PR1 (A ++ [a]) T hv (by rw [hAT]; simp) (by simp at hl; omega) ?_
      have : (fun e => e ∈ A ++ [a]) = fun e => e ∈ A ∨ e = a := by funext e; simp
      rw [this]; exact h1

end Verif.Embed
