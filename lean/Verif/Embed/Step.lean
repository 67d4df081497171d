import Verif.Embed.Ups
import Verif.Embed.DownEnd

/-
The steps of the main loop.
-/
namespace Verif.Embed
open Verif Verif.Graph Verif.EGraph Equiv Equiv.Perm Verif.Map Function
open Verif.Props (AncEq Anc)

variable {B : Base} {Pl : Plan B} {G : Gh B.D} {s : EGraph} {fw PR : Nat → List Nat} {v : Nat}

/-- What holds before the step of `v`. -/
structure Ready (Pl : Plan B) (s : EGraph) (G : Gh B.D) (fw : Nat → List Nat) (v : Nat) : Prop where
  st : St Pl s G fw (fun _ => []) (v + 1)
  rings : Rings B s G
  early : Early G v
  pe : ∀ x, 1 ≤ x → x ≤ B.N → pe s x = 0
  late : ∀ x, 1 ≤ x → x ≤ B.N → v ≤ vis s x ∧ (v < vis s x ∨ v = B.N)
  past : ∀ u, v < u → fw u = []
  rim : ∀ k, G.Live B.N k → Rim G k
  whole : ∀ u, u ≤ v → fw u = Pl.fw0 u

/-- The ends of the components below the vertices already treated. -/
def AllEnds (Pl : Plan B) (G : Gh B.D) (fw : Nat → List Nat) (v : Nat) : Prop := ∀ k, G.Live B.N k → v < B.par k → EndsOK Pl G fw (v + 1) k

theorem Ready.ups (h : Ready Pl s G fw v) : Ups Pl G fw v (· ∈ ([] : List Nat)) s (fun _ => []) := by
  refine ⟨h.st, h.rings, h.early, by simp, by simp, ?_, by simp, by simp, ?_, by simp, fun x h1 h2 => (h.late x h1 h2).1, by simp⟩
  · intro x h1 h2 h3; exact absurd (h.pe x h1 h2) h3
  · intro x h1 h2 h3 c hc hcx hv
    rcases (h.late x h1 h2).2 with hh | hh
    · omega
    · have hr := h.st.good.root c hc
      have := B.par_lt c hc.1 hr.1
      have := B.anc_le hcx h1 h2
      omega

theorem St.before (h : St Pl s G fw PR (v + 1)) : St Pl s G fw PR v := by
  refine ⟨h.rep, h.good, h.fwl, h.wait, h.sub, h.nbr, h.cover, h.prl, h.kids, h.kh, h.low, h.la, ?_, ?_, h.all, h.rn⟩
  · intro x h1 h2
    obtain ⟨A, T, e1, e2, e3⟩ := h.fp x h1 h2
    exact ⟨A, T, e1, e2, fun c hc => (e3 c hc).imp id (by omega)⟩
  · intro u x hu; exact h.act u x (by omega)

/-- What holds between the walks down: the children in `A` are finished. -/
structure Downs (Pl : Plan B) (s : EGraph) (G : Gh B.D) (fw PR : Nat → List Nat) (v : Nat) (A : List Nat) : Prop where
  bt : Between Pl s G fw PR v
  early : ∀ x, B.Child x → ¬ G.Live B.N x → v < B.par (B.par x) ∨ ∃ k ∈ A, AncEq B.par k (B.par x)
  done : ∀ f ∈ fw v, ∀ k ∈ A, ¬ AncEq B.par k (Pl.nb f)
  late : ∀ x, 1 ≤ x → x ≤ B.N → v ≤ vis s x
  past : ∀ u, v < u → fw u = []

/-- The ends of the components between the walks down. -/
def DEnds (Pl : Plan B) (G : Gh B.D) (fw : Nat → List Nat) (v : Nat) (A : List Nat) : Prop :=
  AllEnds Pl G fw v ∧ ∀ k ∈ A, G.Live B.N k → EndsOK Pl G fw v k

/-- A walk down leaves the ends of the other components. -/
theorem DEnds.evo {c0 : Nat} {G' : Gh B.D} {fw' PR' : Nat → List Nat} {A : List Nat} (h : DEnds Pl G fw v A)
    (hA : ∀ k ∈ A, B.Child k ∧ B.par k = v) (hg : Good B.N B.par B.α G)
    (hg' : Good B.N B.par B.α G') (e : Evo Pl c0 v G fw PR G' fw' PR') (h0 : G'.Live B.N c0) (hp : B.par c0 = v) (h0A : c0 ∉ A)
    (hf : ∀ f ∈ fw v, 1 ≤ Pl.nb f ∧ Pl.nb f ≤ B.N) (hc : EndsOK Pl G' fw' v c0) : DEnds Pl G' fw' v (A ++ [c0]) := by
  have key : ∀ k, G'.Live B.N k → k ≠ c0 → v < k → ∀ w, EndsOK Pl G fw w k → EndsOK Pl G' fw' w k := by
    intro k hk hne hvk w he
    have hk0 := e.live k hk
    refine he.congr (e.X k hk hne) ?_
    intro z hz
    obtain ⟨z1, z2, z3⟩ := hg.bd k hk0 z hz
    have hz' := hg.anc B.par_lt z z1 z2
    rw [z3] at hz'
    have hkz := B.anc_le hz' z1 z2
    constructor
    · rintro ⟨u, hu, hn⟩; exact ⟨u, hu, (e.need hg' h0 hp hf hk hne z3 (by omega)).1 hn⟩
    · rintro ⟨u, hu, hn⟩; exact ⟨u, hu, (e.need hg' h0 hp hf hk hne z3 (by omega)).2 hn⟩
  constructor
  · intro k hk hv
    have hkr := hg'.root k hk
    have := B.par_lt k hk.1 hkr.1
    exact key k hk (by rintro rfl; omega) (by omega) _ (h.1 k (e.live k hk) hv)
  · intro k hkA hk
    rcases List.mem_append.1 hkA with hkA | hkA
    · obtain ⟨q1, q2⟩ := hA k hkA
      have := B.par_lt k q1.1 q1.2.1
      exact key k hk (fun hh => h0A (hh ▸ hkA)) (by omega) _ (h.2 k hkA (e.live k hk))
    · rw [List.mem_singleton] at hkA; rw [hkA]; exact hc

/-- After the walks up the roots registered at `v` are forgotten. -/
theorem Ups.downs (h : Ups Pl G fw v (· ∈ fw v) s PR) (hv : 1 ≤ v ∧ v ≤ B.N) (hpast : ∀ u, v < u → fw u = [])
    (hrim : ∀ k, G.Live B.N k → Rim G k) (hall : ∀ u, u ≤ v → fw u = Pl.fw0 u) {r : VInfo} {p : PGraph}
    (hr : s.p.rdVI v = some r) (hp : s.p.wrVI v { r with pertinentRoots := 0 } = some p) :
    Downs Pl (s.setP p) G fw (update PR v []) v [] := by
  rw [← rdVI_some hr] at hp
  have hp' := wrVI_some hp
  have hVI : ∀ y, (s.setP p).p.VI y = if y = v then { s.p.VI y with pertinentRoots := 0 } else s.p.VI y := by
    intro y
    rw [hp']
    show update s.p.VI v _ y = _
    rw [update_apply]
    by_cases hy : y = v
    · rw [if_pos hy, if_pos hy, hy]
    · rw [if_neg hy, if_neg hy]
  have hpg : (s.setP p).p.g = s.p.g := by rw [hp']; rfl
  have hvis : ∀ y, vis (s.setP p) y = vis s y := by
    intro y; unfold vis; rw [hVI]; split <;> rfl
  have hpe : ∀ y, Embed.pe (s.setP p) y = Embed.pe s y := by
    intro y; unfold Embed.pe; rw [hVI]; split <;> rfl
  have hpr : pr (s.setP p) = update (pr s) v 0 := by
    funext y; unfold pr; rw [hVI, update_apply]; split <;> rfl
  have hfpc : ∀ y, fpc (s.setP p) y = fpc s y := by
    intro y; unfold fpc; rw [hVI]; split <;> rfl
  have hmem : ∀ z c, c ∈ update PR v [] z ↔ c ∈ PR z ∧ z ≠ v := by
    intro z c
    by_cases hz : z = v
    · subst hz; simp
    · rw [update_of_ne hz]; simp [hz]
  refine ⟨⟨?_, h.rings.congr rfl, ?_, hrim, fun u hu => hall u (by omega), ?_⟩, ?_, by simp, ?_, hpast⟩
  · refine h.st.before.congr s.p.g.stack hpg rfl rfl ?_ ?_ ?_
    · constructor <;> intro y <;> rw [hVI] <;> split <;> rfl
    · rw [hpr]; exact h.st.prl.clear v
    · intro y h1 h2; rw [hfpc]; exact h.st.before.fp y h1 h2
  · refine ⟨?_, ?_, ?_, ?_, ?_⟩
    · intro x h1 h2; rw [hpe]; exact h.pe x h1 h2
    · intro f hf; rw [hpe]; exact h.all f hf
    · intro z c hc
      obtain ⟨h1, h2⟩ := (hmem z c).1 hc
      obtain ⟨a, b, c⟩ := h.reg z c h1
      exact ⟨a, b, by omega⟩
    · intro z c hc; exact h.wit z c ((hmem z c).1 hc).1
    · intro f hf c hc hcf hvc
      exact (hmem _ _).2 ⟨h.known f hf c hc hcf (by omega), by omega⟩
  · intro z
    by_cases hz : z = v
    · subst hz; simp
    · rw [update_of_ne hz]; exact h.ord z
  · intro x hx hl; exact .inl (h.early x hx hl)
  · intro x h1 h2; rw [hvis]; exact h.late x h1 h2

/-- The next child and its own children are not merged yet. -/
theorem Downs.fresh {A T : List Nat} {c0 : Nat} (h : Downs Pl s G fw PR v A) (hk : Pl.kid v = A ++ c0 :: T) :
    G.Live B.N c0 ∧ (∀ k, B.Child k → B.par k = c0 → G.Live B.N k) ∧ G.X c0 = [c0] ∧ (∀ f ∈ fw v, c0 < Pl.nb f) := by
  have hg := h.bt.st.good
  obtain ⟨hc, hp⟩ := (Pl.kid_iff v c0).1 (by rw [hk]; simp)
  have hc1 := hc.1
  have hc2 := hc.2.1
  have hc3 := hc.2.2
  have hlt := B.par_lt c0 hc1 hc2
  have hv1 : 1 ≤ v ∧ v ≤ B.N := by omega
  have hvlt := B.par_lt v hv1.1 hv1.2
  have hs := Pl.kid_sorted v
  rw [hk, List.pairwise_append, List.pairwise_cons] at hs
  have hA : ∀ k ∈ A, B.Child k ∧ B.par k = v := fun k hk' => (Pl.kid_iff v k).1 (by rw [hk]; simp [hk'])
  have hAv : ∀ k ∈ A, ¬ AncEq B.par k v := by
    intro k hk' hh
    have h1 := hA k hk'
    have h2 := h1.1.1
    have h3 := h1.1.2.1
    have := B.par_lt k h2 h3
    have := B.anc_le hh hv1.1 hv1.2
    omega
  have hAc : ∀ k ∈ A, ¬ AncEq B.par k c0 := by
    intro k hk' hh
    rcases hh.cases with rfl | ⟨_, hh⟩
    · have := hs.2.2 k hk' k (by simp); omega
    · rw [hp] at hh; exact hAv k hk' hh
  have hl : G.Live B.N c0 := by
    by_contra hh
    rcases h.early c0 hc hh with h1 | ⟨k, hk', h1⟩
    · rw [hp] at h1; omega
    · rw [hp] at h1; exact hAv k hk' h1
  have hkids : ∀ k, B.Child k → B.par k = c0 → G.Live B.N k := by
    intro k hkc hkp
    by_contra hh
    rcases h.early k hkc hh with h1 | ⟨k', hk', h1⟩
    · rw [hkp] at h1; omega
    · rw [hkp] at h1; exact hAc k' hk' h1
  refine ⟨hl, hkids, ?_, ?_⟩
  · have hring := (h.bt.rings c0 hl).toRing
    have hall : ∀ x ∈ G.X c0, x = c0 := by
      intro x hx
      obtain ⟨x1, x2, x3⟩ := hg.bd c0 hl x hx
      by_contra hne
      have hax := hg.anc B.par_lt x x1 x2
      rw [x3] at hax
      obtain ⟨k, k1, k2, k3⟩ := AncEq.child hax (fun hh => hne hh.symm)
      have k0 := AncEq.ne_zero k3 (by omega)
      have kx := B.anc_le k3 x1 x2
      have hkl := hkids k ⟨by omega, by omega, k2⟩ k1
      have h1 := live_anc hg hkl k3 x1 x2
      rw [x3] at h1
      have := B.anc_le h1 hc1 hc2
      have := B.par_lt k (by omega) (by omega)
      omega
    have hne := hring.ne
    have hnd := hring.nodup
    cases hX : G.X c0 with
    | nil => exact absurd hX hne
    | cons a l =>
      rw [hX] at hall hnd
      have ha := hall a (by simp)
      cases l with
      | nil => rw [ha]
      | cons b l =>
        have hb := hall b (by simp)
        rw [ha, hb] at hnd; simp at hnd
  · intro f hf
    have hf0 := (h.bt.st.sub v).subset hf
    obtain ⟨_, _, r3, r4⟩ := Pl.fw_range v f hf0
    obtain ⟨a1, a2⟩ := Pl.fw_anc v f hf0
    have hfar := Pl.fw_far v f hf0
    have hne : v ≠ Pl.nb f := by
      have := B.par_lt _ r3 r4
      have := B.anc_le a2 (by omega) (by omega)
      omega
    obtain ⟨k, k1, k2, k3⟩ := AncEq.child (.up a1 a2 : AncEq B.par v (Pl.nb f)) hne
    have k0 := AncEq.ne_zero k3 (by omega)
    have kx := B.anc_le k3 r3 r4
    have hkm : k ∈ Pl.kid v := (Pl.kid_iff v k).2 ⟨⟨by omega, by omega, k2⟩, k1⟩
    rw [hk] at hkm
    have hle : c0 ≤ k := by
      rcases List.mem_append.1 hkm with hkm | hkm
      · exact absurd k3 (h.done f hf k hkm)
      · rcases List.mem_cons.1 hkm with rfl | hkm
        · exact le_rfl
        · exact (hs.2.1.1 k hkm).le
    have : Pl.nb f ≠ c0 := fun hh => hfar (by rw [hh]; exact hp)
    omega

/-- A walk down, or no walk if nothing is pertinent below the child. -/
theorem Downs.next {outer : Bool} {A T : List Nat} {c0 : Nat} (h : Downs Pl s G fw PR v A) (hap : outer = B.ap) (hk : Pl.kid v = A ++ c0 :: T) {r : VInfo}
    (hr : s.p.rdVI c0 = some r) : ∃ s' ok,
    (if r.pertinentRoots ≠ 0 then s.walkDown outer v (c0 + s.p.g.N) else some (s, true)) = some (s', ok) ∧
    ((ok = true ∧ ∃ G' fw' PR', Downs Pl s' G' fw' PR' v (A ++ [c0]) ∧
      (outer = false → DEnds Pl G fw v A → DEnds Pl G' fw' v (A ++ [c0]))) ∨
    (ok = false ∧ Given Pl s' v ∧ (outer = B.ap → (outer = false → DEnds Pl G fw v A) → B.Bad))) := by
  have hs := Pl.kid_sorted v
  rw [hk, List.pairwise_append, List.pairwise_cons] at hs
  have hA : ∀ k ∈ A, B.Child k ∧ B.par k = v := fun k hk' => (Pl.kid_iff v k).1 (by rw [hk]; simp [hk'])
  have h0A : c0 ∉ A := fun hh => by have := hs.2.2 c0 hh c0 (by simp); omega
  obtain ⟨hl, hkids, hX, hlow⟩ := h.fresh hk
  obtain ⟨hc, hp⟩ := (Pl.kid_iff v c0).1 (by rw [hk]; simp)
  have hc1 := hc.1
  have hc2 := hc.2.1
  have hlt := B.par_lt c0 hc1 hc2
  have hpr : r.pertinentRoots = pr s c0 := by rw [← rdVI_some hr]; rfl
  rw [hpr]
  by_cases h0 : PR c0 = []
  · have hz := (h.bt.st.prl.zero hc1 hc2).2 h0
    rw [if_neg (by simp [hz])]
    refine ⟨_, _, rfl, .inl ⟨rfl, G, fw, PR, ⟨h.bt, ?_, ?_, h.late, h.past⟩, fun _ hd => ⟨hd.1, ?_⟩⟩⟩
    · intro x hx hl; exact (h.early x hx hl).imp id fun ⟨k, a, b⟩ => ⟨k, by simp [a], b⟩
    · intro f hf k hk' hkf
      rcases List.mem_append.1 hk' with hk' | hk'
      · exact h.done f hf k hk' hkf
      · simp at hk'; subst hk'
        obtain ⟨_, _, r3, r4⟩ := Pl.fw_range v f ((h.bt.st.sub v).subset hf)
        have hne := hlow f hf
        obtain ⟨k', k1, k2, k3⟩ := AncEq.child hkf (by omega)
        have k0 := AncEq.ne_zero k3 (by omega)
        have kx := B.anc_le k3 r3 r4
        have hkl := hkids k' ⟨by omega, by omega, k2⟩ k1
        have := h.bt.dn.known f hf k' hkl k3 (by omega)
        rw [k1, h0] at this
        simp at this
    · intro k hkA hkl
      rcases List.mem_append.1 hkA with hkA | hkA
      · exact hd.2 k hkA hkl
      · rw [List.mem_singleton] at hkA; subst hkA
        exact .inr ⟨k, by rw [hX]; simp, fun z hz _ => by rw [hX] at hz; simpa using hz⟩
  · have hz : pr s c0 ≠ 0 := fun hh => h0 ((h.bt.st.prl.zero hc1 hc2).1 hh)
    rw [if_pos hz, h.bt.st.rep.N]
    obtain ⟨s', ok, hs', hcase⟩ := walkDown_spec hap h.bt hl hp hX h0 hlow
    refine ⟨s', ok, hs', ?_⟩
    rcases hcase with ⟨hok, G', fw', PR', b1, e, b0, b4, b5, b6⟩ | ⟨hok, hsk, hb⟩
    swap
    · exact .inr ⟨hok, hsk, fun ho hd => hb ho fun hf => (hd hf).1⟩
    have b3 := e.sub
    have b2 : ∀ k, G.Live B.N k → G'.Live B.N k ∨ AncEq B.par c0 (B.par k) := by
      intro k hk
      refine (e.dead k hk).imp id fun ⟨h1, _⟩ => ?_
      have h2 := h.bt.st.good.root k hk
      have h3 := up_range B ⟨hk.1, h2.1⟩ h2.2.1
      have h4 := b1.st.good.anc B.par_lt _ h3.1 h3.2
      rwa [h1] at h4
    refine .inl ⟨hok, G', fw', PR', ⟨b1, ?_, ?_, ?_, ?_⟩, fun ho hd =>
      hd.evo hA h.bt.st.good b1.st.good e b0 hp h0A (fun f hf => (Pl.fw_range v f ((h.bt.st.sub v).subset hf)).2.2) (b6 ho)⟩
    · intro x hx hnl
      by_cases hlx : G.Live B.N x
      · rcases b2 x hlx with hh | hh
        · exact absurd hh hnl
        · exact .inr ⟨c0, by simp, hh⟩
      · exact (h.early x hx hlx).imp id fun ⟨k, a, b⟩ => ⟨k, by simp [a], b⟩
    · intro f hf k hk' hkf
      rcases List.mem_append.1 hk' with hk' | hk'
      · exact h.done f (b3 v f hf) k hk' hkf
      · simp at hk'; subst hk'; exact b5 f hf hkf
    · intro x h1 h2; unfold vis; rw [b4]; exact h.late x h1 h2
    · intro u hu
      rw [List.eq_nil_iff_forall_not_mem]
      intro f hf
      have := b3 u f hf
      rw [h.past u hu] at this; simp at this

theorem walkDowns_spec {outer : Bool} (hap : outer = B.ap) (hv : 1 ≤ v ∧ v ≤ B.N) : ∀ (fuel : Nat) (s : EGraph) (G : Gh B.D) (fw PR : Nat → List Nat)
    (A T : List Nat), Pl.kid v = A ++ T → T.length ≤ fuel → Downs Pl s G fw PR v A →
    ∃ s' ok, walkDowns outer v fuel s (T.headD 0) = some (s', ok) ∧
    ((ok = true ∧ ∃ G' fw' PR', Downs Pl s' G' fw' PR' v (Pl.kid v) ∧
      (outer = false → DEnds Pl G fw v A → DEnds Pl G' fw' v (Pl.kid v))) ∨
    (ok = false ∧ Given Pl s' v ∧ (outer = B.ap → (outer = false → DEnds Pl G fw v A) → B.Bad))) := by
  intro fuel
  induction fuel with
  | zero =>
    intro s G fw PR A T hAT hl h
    have : T = [] := List.length_eq_zero_iff.1 (by omega)
    subst this
    rw [List.append_nil] at hAT
    rw [hAT]; exact ⟨s, true, by simp [walkDowns], .inl ⟨rfl, G, fw, PR, h, fun _ hd => hd⟩⟩
  | succ fuel ih =>
    intro s G fw PR A T hAT hl h
    generalize he : walkDowns outer v (fuel + 1) s (T.headD 0) = o
    unfold walkDowns at he
    cases T with
    | nil =>
      simp only [List.headD_nil, if_true] at he
      subst he
      rw [List.append_nil] at hAT
      rw [hAT]; exact ⟨_, _, rfl, .inl ⟨rfl, G, fw, PR, h, fun _ hd => hd⟩⟩
    | cons a T =>
      have ha := (Pl.kl.bound v a (by rw [hAT]; simp)).1
      have ha0 : ¬ (a :: T).headD 0 = 0 := by simp; omega
      rw [if_neg ha0] at he
      simp only [List.headD_cons] at he
      have haN : a < 1 + s.p.g.N := by
        have := ((Pl.kid_iff v a).1 (by rw [hAT]; simp)).1.2.1
        rw [h.bt.st.rep.N]; omega
      have hr := rdVI_ok haN
      obtain ⟨s1, ok1, hs1, hcase⟩ := h.next hap hAT hr
      rw [hr] at he
      simp only [Option.bind_eq_bind, Option.bind_some] at he
      have he' : (if !ok1 then some (s1, false) else (s1.nextChild v a).bind fun n => walkDowns outer v fuel s1 n) = o := by
        by_cases hq : (s.p.VI a).pertinentRoots ≠ 0
        · rw [if_pos hq] at he hs1
          rw [hs1] at he; exact he
        · rw [if_neg hq] at he hs1
          simp only [Option.some.injEq, Prod.mk.injEq] at hs1
          obtain ⟨rfl, rfl⟩ := hs1
          exact he
      clear he
      have he := he'
      rcases hcase with ⟨rfl, G1, fw1, PR1, h1, hd1⟩ | ⟨rfl, hb⟩
      swap
      · simp only [Bool.not_false, if_true] at he
        subst he
        exact ⟨_, _, rfl, .inr ⟨rfl, hb⟩⟩
      · simp only [Bool.not_true, Bool.false_eq_true, if_false] at he
        have hn : s1.nextChild v a = some (T.headD 0) := by
          unfold EGraph.nextChild
          rw [rdVI_ok (by rw [h1.bt.st.rep.N]; omega)]
          simp only [Option.bind_eq_bind, Option.bind_some]
          rw [h1.bt.st.kids, h1.bt.st.kh v hv.1 hv.2, Pl.next hv hAT]
        rw [hn] at he
        simp only [Option.bind_some] at he
        subst he
        obtain ⟨s2, ok2, hs2, ⟨h2, G2, fw2, PR2, h3, h4⟩ | ⟨h2, hsk, h3⟩⟩ := ih s1 G1 fw1 PR1 (A ++ [a]) T (by rw [hAT]; simp)
          (by simp at hl; omega) h1
        · exact ⟨s2, ok2, hs2, .inl ⟨h2, G2, fw2, PR2, h3, fun ho hd => h4 ho (hd1 ho hd)⟩⟩
        · exact ⟨s2, ok2, hs2, .inr ⟨h2, hsk, fun ho hd => h3 ho fun hf => hd1 hf (hd hf)⟩⟩

/-- After the last walk down no arc is left at the vertex. -/
theorem Downs.empty (h : Downs Pl s G fw PR (v + 1) (Pl.kid (v + 1))) : fw (v + 1) = [] := by
    rw [List.eq_nil_iff_forall_not_mem]
    intro f hf
    have hf0 := (h.bt.st.sub (v + 1)).subset hf
    obtain ⟨_, _, r3, r4⟩ := Pl.fw_range _ f hf0
    obtain ⟨a1, a2⟩ := Pl.fw_anc _ f hf0
    have hne : v + 1 ≠ Pl.nb f := by
      have := B.par_lt _ r3 r4
      have := B.anc_le a2 (by omega) (by omega)
      omega
    obtain ⟨k, k1, k2, k3⟩ := AncEq.child (.up a1 a2 : AncEq B.par (v + 1) (Pl.nb f)) hne
    have k0 := AncEq.ne_zero k3 (by omega)
    have kx := B.anc_le k3 r3 r4
    exact h.done f hf k ((Pl.kid_iff _ k).2 ⟨⟨by omega, by omega, k2⟩, k1⟩) k3

theorem Downs.ends (h : Downs Pl s G fw PR (v + 1) (Pl.kid (v + 1))) (hd : DEnds Pl G fw (v + 1) (Pl.kid (v + 1))) : AllEnds Pl G fw v := by
  intro k hk hv
  have hkr := h.bt.st.good.root k hk
  by_cases hq : B.par k = v + 1
  · exact hd.2 k ((Pl.kid_iff _ k).2 ⟨⟨hk.1, hkr.1, hkr.2.1⟩, hq⟩) hk
  · have ha : ∀ z, Act Pl G fw (v + 1 + 1) z → Act Pl G fw (v + 1) z := by
      rintro z ⟨u, hu, hn⟩
      refine ⟨u, ?_, hn⟩
      by_contra hh
      have : u = v + 1 := by omega
      subst this
      obtain ⟨f, hf, _⟩ := hn
      rw [h.empty] at hf; simp at hf
    have ha' : ∀ z, Act Pl G fw (v + 1) z → Act Pl G fw (v + 1 + 1) z := fun z ⟨u, hu, hn⟩ => ⟨u, by omega, hn⟩
    rcases hd.1 k hk (by omega) with h1 | ⟨a, h1, h2⟩
    · exact .inl fun a q => ha a (h1 a q)
    · exact .inr ⟨a, h1, fun z hz q => h2 z hz (ha' z q)⟩

/-- After the last walk down everything is ready for the vertex before. -/
theorem Downs.ready (h : Downs Pl s G fw PR (v + 1) (Pl.kid (v + 1))) (hv : v + 1 ≤ B.N) : Ready Pl s G fw v := by
  have hfw := h.empty
  have hPR : PR = fun _ => [] := by
    funext z
    rw [List.eq_nil_iff_forall_not_mem]
    intro c hc
    obtain ⟨f, hf, _⟩ := h.bt.dn.wit z c hc
    rw [hfw] at hf; simp at hf
  refine ⟨hPR ▸ h.bt.st, h.bt.rings, ?_, ?_, ?_, ?_, h.bt.rim, fun u hu => h.bt.full u (by omega)⟩
  · intro x hx hl
    rcases h.early x hx hl with h1 | ⟨k, hk, h1⟩
    · omega
    · obtain ⟨⟨k1, k2, k3⟩, k4⟩ := (Pl.kid_iff _ k).1 hk
      have hx1 := hx.1
      have hx2 := hx.2.1
      have hx3 := hx.2.2
      have hxlt := B.par_lt x hx1 hx2
      have hklt := B.par_lt k k1 k2
      rcases h1.cases with h2 | ⟨h2, h3⟩
      · rw [← h2, k4]; omega
      · have := B.par_lt (B.par x) (by omega) (by omega)
        have := B.anc_le h3 (by omega) (by omega)
        omega
  · intro x h1 h2
    by_contra hh
    have := (h.bt.dn.pe x h1 h2 hh).1
    rw [hfw] at this; simp at this
  · intro x h1 h2
    have := h.late x h1 h2
    omega
  · intro u hu
    by_cases hq : u = v + 1
    · rw [hq]; exact hfw
    · exact h.past u (by omega)

theorem embedStep_spec {outer : Bool} (hap : outer = B.ap) (h : Ready Pl s G fw (v + 1)) (hv : v + 1 ≤ B.N) :
    ∃ s' ok, s.embedStep outer (v + 1) = some (s', ok) ∧
    ((ok = true ∧ ∃ G' fw', Ready Pl s' G' fw' v ∧ (outer = false → AllEnds Pl G fw (v + 1) → AllEnds Pl G' fw' v)) ∨
    (ok = false ∧ Given Pl s' (v + 1) ∧ (outer = B.ap → (outer = false → AllEnds Pl G fw (v + 1)) → B.Bad))) := by
  generalize he : s.embedStep outer (v + 1) = o
  unfold EGraph.embedStep at he
  rw [rdVI_ok (by rw [h.st.rep.N]; omega)] at he
  simp only [Option.bind_eq_bind, Option.bind_some] at he
  have hhd : (s.p.VI (v + 1)).fwdArcList = (fw (v + 1)).headD 0 := h.st.fwl.head _ (by omega) hv
  have hlen : (fw (v + 1)).length ≤ s.p.g.eSize := by
    have h1 := List.toFinset_card_of_nodup (h.st.fwl.nodup (v + 1))
    have h2 : (fw (v + 1)).toFinset ⊆ Finset.range s.p.g.eSize := by
      intro x hx
      rw [List.mem_toFinset] at hx
      exact Finset.mem_range.2 (h.st.fwl.bound _ x hx).2
    have h3 := Finset.card_le_card h2
    rw [Finset.card_range, h1] at h3
    exact h3
  obtain ⟨s1, hs1, PR1, h1⟩ := walkUps_spec _ s _ [] (fw (v + 1)) ⟨by omega, hv⟩ rfl hlen h.ups
  rw [hhd, hs1] at he
  simp only [Option.bind_some] at he
  have hvN : v + 1 < 1 + s1.p.g.N := by rw [h1.st.rep.N]; omega
  have hr1 := rdVI_ok hvN
  obtain ⟨p, hp⟩ : ∃ p, s1.p.wrVI (v + 1) { s1.p.VI (v + 1) with pertinentRoots := 0 } = some p := ⟨_, if_pos hvN⟩
  rw [hr1] at he
  simp only [Option.bind_some] at he
  rw [hp] at he
  simp only [Option.bind_some] at he
  have h2 := h1.downs ⟨by omega, hv⟩ h.past h.rim h.whole hr1 hp
  have hkh : (s1.p.VI (v + 1)).sortedDFSChildList = (Pl.kid (v + 1)).headD 0 := by
    rw [h1.st.kh _ (by omega) hv]
    exact Pl.kl.head _ (by omega) hv
  rw [hkh] at he
  subst he
  obtain ⟨s3, ok, hs3, ⟨hok, G3, fw3, PR3, h3, h4⟩ | ⟨hok, hsk, h4⟩⟩ := walkDowns_spec hap ⟨by omega, hv⟩ (1 + (s1.setP p).p.g.N) _ _ _ _ []
    (Pl.kid (v + 1)) rfl (by rw [h2.bt.st.rep.N]; have := kid_length Pl (v + 1); omega) h2
  · exact ⟨s3, ok, hs3, .inl ⟨hok, G3, fw3, h3.ready hv, fun ho hd => h3.ends (h4 ho ⟨hd, by simp⟩)⟩⟩
  · exact ⟨s3, ok, hs3, .inr ⟨hok, hsk, fun ho hd => h4 ho fun hf => ⟨hd hf, by simp⟩⟩⟩

theorem embedLoop_spec {outer : Bool} (hap : outer = B.ap) : ∀ (v : Nat) (s : EGraph) (G : Gh B.D) (fw : Nat → List Nat), v ≤ B.N → Ready Pl s G fw v →
    ∃ s' ok, embedLoop outer v s = some (s', ok) ∧
    ((ok = true ∧ ∃ G' fw', Ready Pl s' G' fw' 0) ∨ (ok = false ∧ (∃ v, 1 ≤ v ∧ Given Pl s' v) ∧ (outer = B.ap → (outer = false → AllEnds Pl G fw v) → B.Bad))) := by
  intro v
  induction v with
  | zero =>
    intro s G fw _ h
    exact ⟨s, true, rfl, .inl ⟨rfl, G, fw, h⟩⟩
  | succ v ih =>
    intro s G fw hv h
    generalize he : embedLoop outer (v + 1) s = o
    unfold embedLoop at he
    obtain ⟨s1, ok1, hs1, hcase⟩ := embedStep_spec hap h hv
    rw [hs1] at he
    simp only [Option.bind_eq_bind, Option.bind_some] at he
    rcases hcase with ⟨rfl, G1, fw1, h1, hd1⟩ | ⟨rfl, hsk, hb⟩
    · simp only [if_true] at he
      subst he
      obtain ⟨s2, ok2, hs2, hh | ⟨h2, hsk, h3⟩⟩ := ih s1 G1 fw1 (by omega) h1
      · exact ⟨s2, ok2, hs2, .inl hh⟩
      · exact ⟨s2, ok2, hs2, .inr ⟨h2, hsk, fun ho hd => h3 ho fun hf => hd1 hf (hd hf)⟩⟩
    · simp only [Bool.false_eq_true, if_false, pure] at he
      subst he
      exact ⟨_, _, rfl, .inr ⟨rfl, ⟨_, by omega, hsk⟩, hb⟩⟩

/-- At the end every arc is embedded. -/
theorem Ready.full (h : Ready Pl s G fw 0) (d : B.D) : ∃ x, d ∈ G.L x := by
  rcases h.st.cover d with hh | ⟨u, hu⟩
  · exact hh
  · have h0 : fw u = [] := by
      by_cases hq : 0 < u
      · exact h.past u hq
      · rw [List.eq_nil_iff_forall_not_mem]
        intro f hf
        have := (Pl.fw_range u f ((h.st.sub u).subset hf)).1
        omega
    rw [h0] at hu; simp at hu

end Verif.Embed
