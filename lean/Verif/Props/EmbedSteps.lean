import Verif.Embed.Moments
import Verif.Props.EmbedOuterKuratowski

/-
The partial embedding within the step of one vertex, within the orientation and within the joining: C53.
-/
namespace Verif.Props
open Verif Verif.Graph Verif.DFS Verif.Embed Verif.EGraph Function

/-- The graph before looking at child `c` of `v` (or after the last child, with `c = 0`) in the step for vertex `v` of
the main loop of gp_Embed, graphEmbed.c 97-129. -/
inductive Before (s0 : PGraph) (outer : Bool) : Nat → Nat → EGraph → Prop
  | first {v : Nat} {s s1 : EGraph} {re r : VInfo} {p : PGraph} : Stage s0 outer (v + 1) s → s.p.rdVI (v + 1) = some re →
      walkUps (v + 1) s.p.g.eSize s re.fwdArcList = some s1 → s1.p.rdVI (v + 1) = some r →
      s1.p.wrVI (v + 1) { r with pertinentRoots := 0 } = some p → Before s0 outer (v + 1) r.sortedDFSChildList (s1.setP p)
  | next {v c n : Nat} {s s' : EGraph} {r : VInfo} : Before s0 outer v c s → c ≠ 0 → s.p.rdVI c = some r →
      (if r.pertinentRoots ≠ 0 then s.walkDown outer v (c + s.p.g.N) else some (s, true)) = some (s', true) →
      s'.nextChild v c = some n → Before s0 outer v n s'

/-- The graph before a round of `_WalkDown`, at vertex `W` entered by `wPrev`, graphEmbed.c 850-860. -/
inductive Round (s0 : PGraph) (outer : Bool) : Nat → Bool → Nat → Nat → Bool → EGraph → Prop
  | left {v c W a : Nat} {s : EGraph} {r : VInfo} : Before s0 outer v c s → c ≠ 0 → s.p.rdVI c = some r → r.pertinentRoots ≠ 0 →
      (s.setG s.p.g.clearStack).getExt (c + s.p.g.N) false = some W → (s.setG s.p.g.clearStack).getExt W true = some a →
      Round s0 outer v false (c + s.p.g.N) W (if a = c + s.p.g.N then true else false) (s.setG s.p.g.clearStack)
  | right {v c W a : Nat} {s s' : EGraph} {r : VInfo} : Before s0 outer v c s → c ≠ 0 → s.p.rdVI c = some r → r.pertinentRoots ≠ 0 →
      (s.setG s.p.g.clearStack).downSide outer v false (c + s.p.g.N) = some (s', true) →
      s'.getExt (c + s.p.g.N) true = some W → s'.getExt W true = some a →
      Round s0 outer v true (c + s.p.g.N) W (if a = c + s.p.g.N then true else false) s'
  | next {v root W W' : Nat} {side wPrev wPrev' : Bool} {s s' : EGraph} : Round s0 outer v side root W wPrev s → W ≠ root →
      s.downRound outer v side root W wPrev = some (s', .at W' wPrev') → Round s0 outer v side root W' wPrev' s'

/-- The graph before a round of `_MergeBicomps`, or after the last one, when the pending edge of `W` is to be embedded,
graphEmbed.c 863-866 and 558-635. -/
inductive Merging (s0 : PGraph) (outer : Bool) : Bool → Nat → Nat → Bool → EGraph → Prop
  | start {v root W : Nat} {side wPrev : Bool} {s : EGraph} {r : VInfo} : Round s0 outer v side root W wPrev s → W ≠ root →
      s.p.rdVI W = some r → r.pertinentEdge ≠ 0 → Merging s0 outer side root W wPrev s
  | next {root W R Z rOut zPrev : Nat} {side wPrev ro zp : Bool} {rest : List Nat} {s s' : EGraph} : Merging s0 outer side root W wPrev s →
      s.p.g.stack = rOut :: R :: zPrev :: Z :: rest → linkOf rOut = some ro → linkOf zPrev = some zp →
      (s.setG { s.p.g with stack := rest }).mergeOne R ro Z zp = some s' → Merging s0 outer side root W wPrev s'

/-- The graph before root copy `N + 1 + n` in `_OrientVerticesInEmbedding`, graphEmbed.c 1196-1213. -/
inductive Turning (s0 : PGraph) (outer : Bool) : Nat → EGraph → Prop
  | start {s : EGraph} : Stage s0 outer 0 s → Turning s0 outer 0 (s.setG s.p.g.clearStack)
  | next {n : Nat} {s s' : EGraph} : Turning s0 outer n s → n < s.p.g.N → s.orientBicomp (s.p.g.N + 1 + n) = some s' → Turning s0 outer (n + 1) s'

/-- The graph before a vertex in `_OrientVerticesInBicomp`, graphEmbed.c 1247-1280. -/
inductive TurningIn (s0 : PGraph) (outer : Bool) : EGraph → Prop
  | start {n a : Nat} {s : EGraph} {g : Graph} : Turning s0 outer n s → n < s.p.g.N → s.p.g.getArc (s.p.g.N + 1 + n) false = some a → a ≠ 0 →
      s.p.g.push2 (s.p.g.N + 1 + n) 0 = some g → TurningIn s0 outer (s.setG g)
  | next {flag W a : Nat} {rest : List Nat} {s s1 : EGraph} {g : Graph} : TurningIn s0 outer s → s.p.g.stack = flag :: W :: rest →
      (if flag ≠ 0 then (s.setG { s.p.g with stack := rest }).invertVertex W else some (s.setG { s.p.g with stack := rest })) = some s1 →
      s1.p.g.getArc W false = some a → pushKids flag s1.p.g.eSize s1.p.g a = some g → TurningIn s0 outer (s1.setG g)

/-- The graph before root copy `N + 1 + n` in `_JoinBicomps`, graphEmbed.c 1291-1304. -/
inductive Joins (s0 : PGraph) (outer : Bool) : Nat → EGraph → Prop
  | start {s s' : EGraph} : Stage s0 outer 0 s → s.orientAll = some s' → Joins s0 outer 0 s'
  | next {n : Nat} {s s' : EGraph} : Joins s0 outer n s → n < s.p.g.N → s.joinOne (s.p.g.N + 1 + n) = some s' → Joins s0 outer (n + 1) s'

/-- The graph at the moments of gp_Embed between which one elementary step is done. -/
inductive Moment (s0 : PGraph) (outer : Bool) : EGraph → Prop
  | stage {v : Nat} {s : EGraph} : Stage s0 outer v s → Moment s0 outer s
  | before {v c : Nat} {s : EGraph} : Before s0 outer v c s → Moment s0 outer s
  | round {v root W : Nat} {side wPrev : Bool} {s : EGraph} : Round s0 outer v side root W wPrev s → Moment s0 outer s
  | merging {root W : Nat} {side wPrev : Bool} {s : EGraph} : Merging s0 outer side root W wPrev s → Moment s0 outer s
  | flipped {root W R Z rOut zPrev : Nat} {side wPrev ro zp : Bool} {rest : List Nat} {s s1 s' : EGraph} : Merging s0 outer side root W wPrev s →
      s.p.g.stack = rOut :: R :: zPrev :: Z :: rest → linkOf rOut = some ro → linkOf zPrev = some zp →
      (s.setG { s.p.g with stack := rest }).linkExt R ro Z zp = some s1 → zp = ro → s1.flipRoot R = some s' → Moment s0 outer s'
  | embedded {root W : Nat} {side wPrev : Bool} {s s' : EGraph} : Merging s0 outer side root W wPrev s → s.p.g.stack = [] →
      s.embedBackEdge side root W wPrev = some s' → Moment s0 outer s'
  | rounded {v root W : Nat} {side wPrev : Bool} {s s' : EGraph} {d : Down} : Round s0 outer v side root W wPrev s → W ≠ root →
      s.downRound outer v side root W wPrev = some (s', d) → Moment s0 outer s'
  | turning {n : Nat} {s : EGraph} : Turning s0 outer n s → Moment s0 outer s
  | turningIn {s : EGraph} : TurningIn s0 outer s → Moment s0 outer s
  | joins {n : Nat} {s : EGraph} : Joins s0 outer n s → Moment s0 outer s

section
variable {s0 : PGraph} {outer : Bool} {v c : Nat} {s : EGraph}

theorem st_plane' {rot : Nat → List Nat} {B : Base} {num inv : Nat → Nat} {Pl : Plan B} {G : Gh B.D} {fw PR : Nat → List Nat} (hI : PInv s0 rot)
    (S : Sorted s0 rot B num inv) (h : St Pl s G fw PR v) : PlanePart (Live s0.g) s.p.g G.o (lists G.L) := by
  have hA : B.A = Live s0.g := funext fun e => propext ((S.A e).trans (live_iff hI.inv).symm)
  have r := h.rep
  refine hA ▸ planePart_of r.fix h.good.core r.links ?_ ?_
  · intro x d hd
    exact r.owner x d.1 (mem_raw'.2 hd)
  · intro x d hd
    obtain ⟨y, hy, _⟩ := h.good.pair x d hd
    exact ⟨y, hy⟩

theorem st_plane {rot : Nat → List Nat} {B : Base} {num inv : Nat → Nat} {Pl : Plan B} {G : Gh B.D} {fw PR : Nat → List Nat} (hI : PInv s0 rot)
    (S : Sorted s0 rot B num inv) (h : St Pl s G fw PR v) : ∃ o L, PlanePart (Live s0.g) s.p.g o L :=
  ⟨_, _, st_plane' hI S h⟩

theorem before_downs (hr : PReach s0) (hf : s0.g.dfsNumbered = false) (hs : IsSimple s0.g) (h : Before s0 outer v c s) :
    ∃ rot B num inv Pl G fw PR A T, PInv s0 rot ∧ Sorted s0 rot B num inv ∧ B.ap = outer ∧ (1 ≤ v ∧ v ≤ B.N) ∧ Pl.kid v = A ++ T ∧
      c = T.headD 0 ∧ Downs (B := B) Pl s G fw PR v A := by
  induction h with
  | @first v s s1 re r p hS hre hup hr1 hp =>
    obtain ⟨rot, B, num, inv, Pl, G, fw, hI, S, hv, R, hap⟩ := stage_ready hr hf hs hS
    have hhd : re.fwdArcList = (fw (v + 1)).headD 0 := by
      rw [← rdVI_some hre]; exact R.st.fwl.head _ (by omega) hv
    have hlen : (fw (v + 1)).length ≤ s.p.g.eSize := by
      have h1 := List.toFinset_card_of_nodup (R.st.fwl.nodup (v + 1))
      have h2 : (fw (v + 1)).toFinset ⊆ Finset.range s.p.g.eSize := by
        intro x hx
        rw [List.mem_toFinset] at hx
        exact Finset.mem_range.2 (R.st.fwl.bound _ x hx).2
      have h3 := Finset.card_le_card h2
      rw [Finset.card_range, h1] at h3
      exact h3
    obtain ⟨s2, hs2, PR1, h1⟩ := walkUps_spec _ s _ [] (fw (v + 1)) ⟨by omega, hv⟩ rfl hlen R.ups
    rw [hhd, hs2] at hup
    cases hup
    have hr1' := rdVI_some hr1
    subst hr1'
    have h2 := h1.downs ⟨by omega, hv⟩ R.past R.rim R.whole hr1 hp
    refine ⟨rot, B, num, inv, Pl, G, fw, _, [], Pl.kid (v + 1), hI, S, hap, ⟨by omega, hv⟩, rfl, ?_, h2⟩
    rw [h1.st.kh _ (by omega) hv]
    exact Pl.kl.head _ (by omega) hv
  | @next v c n s s' r _ hc hrd hw hn ih =>
    obtain ⟨rot, B, num, inv, Pl, G, fw, PR, A, T, hI, S, hap, hv, hAT, hcT, h⟩ := ih
    cases T with
    | nil => exact absurd hcT hc
    | cons a T =>
      obtain rfl : c = a := hcT
      obtain ⟨s1, ok1, hs1, hcase⟩ := h.next hap.symm hAT hrd
      rw [hw] at hs1
      cases hs1
      obtain ⟨-, G1, fw1, PR1, h1, -⟩ := hcase.resolve_right (by simp)
      refine ⟨rot, B, num, inv, Pl, G1, fw1, PR1, A ++ [c], T, hI, S, hap, hv, by rw [hAT]; simp, ?_, h1⟩
      unfold EGraph.nextChild at hn
      rw [rdVI_ok (by rw [h1.bt.st.rep.N]; omega)] at hn
      simp only [Option.bind_eq_bind, Option.bind_some] at hn
      rw [h1.bt.st.kids, h1.bt.st.kh v hv.1 hv.2, Pl.next hv hAT] at hn
      exact (Option.some.inj hn).symm

theorem round_at (hr : PReach s0) (hf : s0.g.dfsNumbered = false) (hs : IsSimple s0.g) {side wPrev : Bool} {root W : Nat}
    (h : Round s0 outer v side root W wPrev s) :
    ∃ rot B num inv Pl G fw PR p c0 m, PInv s0 rot ∧ Sorted s0 rot B num inv ∧ B.ap = outer ∧ root = c0 + B.N ∧
      DL (B := B) Pl p side c0 s G fw PR v ∧ At Pl p s G fw PR v c0 W wPrev m := by
  have key : ∀ {v c : Nat} {s : EGraph} {r : VInfo}, Before s0 outer v c s → c ≠ 0 → s.p.rdVI c = some r → r.pertinentRoots ≠ 0 →
      ∃ rot B num inv Pl G fw PR p, PInv s0 rot ∧ Sorted s0 rot B num inv ∧ B.ap = outer ∧ s.p.g.N = B.N ∧ B.par c = v ∧
        DL (B := B) Pl p false c (s.setG s.p.g.clearStack) G fw PR v ∧ p.base = G.X c := by
    intro v c s r hb hc hrd hp
    obtain ⟨rot, B, num, inv, Pl, G, fw, PR, A, T, hI, S, hap, hv, hAT, hcT, h⟩ := before_downs hr hf hs hb
    cases T with
    | nil => exact absurd hcT hc
    | cons a T =>
      obtain rfl : c = a := hcT
      obtain ⟨hl, hkids, hX, hlow⟩ := h.fresh hAT
      obtain ⟨hch, hpar⟩ := (Pl.kid_iff v c).1 (by rw [hAT]; simp)
      have hPR : PR c ≠ [] := by
        intro h0
        refine hp ?_
        rw [← rdVI_some hrd]
        exact (h.bt.st.prl.zero hch.1 hch.2.1).2 h0
      obtain ⟨p, G0, hD, hb0⟩ := h.bt.left hl hpar hX hPR
      exact ⟨rot, B, num, inv, Pl, G0, fw, PR, p, hI, S, hap, h.bt.st.rep.N, hpar, hD, hb0⟩
  induction h with
  | left hb hc hrd hp hW ha =>
    obtain ⟨rot, B, num, inv, Pl, G, fw, PR, p, hI, S, hap, hN, hpar, hD, hb0⟩ := key hb hc hrd hp
    rw [hN] at hW ⊢
    exact ⟨rot, B, num, inv, Pl, G, fw, PR, p, _, _, hI, S, hap, rfl, hD, hD.at_start rfl hb0 (.inl rfl) hW ha⟩
  | @right c W a s s' r hb hc hrd hp hd hW ha =>
    obtain ⟨rot, B, num, inv, Pl, G, fw, PR, p, hI, S, hap, hN, hpar, hD, hb0⟩ := key hb hc hrd hp
    rw [hN] at hd hW ⊢
    obtain ⟨s1, r1, hs1, hd1⟩ := downSide_spec hap.symm hD rfl hb0 (.inl rfl)
    rw [hd] at hs1
    cases hs1
    obtain ⟨-, G1, fw1, PR1, hE⟩ := hd1.resolve_right (by simp)
    have hXr : (G1.reflect c).X c = (G1.X c).reverse := reflect_X'
    have hD1 := hE.right hpar
    exact ⟨rot, B, num, inv, Pl, _, fw1, PR1, _, _, _, hI, S, hap, rfl, hD1,
      hD1.at_start hE.stack hXr.symm (.inr (by rw [hXr, List.length_reverse]; exact hE.two)) hW ha⟩
  | next _ hW hd ih =>
    obtain ⟨rot, B, num, inv, Pl, G, fw, PR, p, c0, m, hI, S, hap, rfl, hD, hat⟩ := ih
    obtain ⟨m', rfl⟩ := hat.pos hW
    obtain ⟨s1, d, hs1, hcase⟩ := downRound_spec hap.symm hD hat hW
    rw [hd] at hs1
    cases hs1
    rcases hcase with ⟨hh, -⟩ | ⟨G1, fw1, PR1, ⟨hh, -⟩ | ⟨W1, w1, hh, hD1, hat1⟩⟩
    · exact absurd hh (by simp)
    · exact absurd hh (by simp)
    · cases hh
      exact ⟨rot, B, num, inv, Pl, G1, fw1, PR1, p, c0, m', hI, S, hap, rfl, hD1, hat1⟩

theorem merging_mg (hr : PReach s0) (hf : s0.g.dfsNumbered = false) (hs : IsSimple s0.g) {side wPrev : Bool} {root W : Nat}
    (h : Merging s0 outer side root W wPrev s) :
    ∃ rot B num inv Pl G fw PR v I c0 V fr b, PInv s0 rot ∧ Sorted s0 rot B num inv ∧ root = c0 + B.N ∧
      Mg (B := B) Pl I c0 W V fr s G fw PR v b ∧ B.par c0 = v ∧ G.o (c0 + B.N) = side ∧ wPrev = (!G.o W) ∧ pe s W ≠ 0 ∧ pe s W ∈ fw v ∧
      Pl.nb (pe s W) = W ∧ ∀ a, (G.X c0).getLast? = some a → pe s a = 0 := by
  induction h with
  | @start v root W side wPrev s r hR hW hrd hpe =>
    obtain ⟨rot, B, num, inv, Pl, G, fw, PR, p, c0, m, hI, S, hap, rfl, h, hat⟩ := round_at hr hf hs hR
    rcases hat with ⟨fr, b, V, K, hm, hp, hF, hst, hper, rfl⟩ | ⟨hh, _⟩
    swap
    · exact absurd hh hW
    obtain ⟨hW1, hWN, hWcp, hbW⟩ := hp.cp h.st.good
    have hlb := hp.split.1
    have hpe' : pe s W ≠ 0 := by rw [← rdVI_some hrd] at hpe; exact hpe
    obtain ⟨hf, hnb⟩ := h.dn.pe W hW1 hWN hpe'
    exact ⟨rot, B, num, inv, Pl, G, fw, PR, v, _, c0, V, fr, b, hI, S, rfl,
      ⟨h.st, hp, fun x hx => hx.1, (h.rings b hlb).open, fun k hk _ => (h.rings k hk).toRing, ⟨[], (h.rings b hlb).tight⟩,
        fun k hk _ => (h.rings k hk).tight, fun z c hc => ⟨(h.dn.reg z c hc).1, (h.dn.reg z c hc).2.1⟩, hst⟩, h.par, h.or, rfl, hpe', hf, hnb, h.last⟩
  | next _ hst h1 h2 hm ih =>
    obtain ⟨rot, B, num, inv, Pl, G, fw, PR, v, I, c0, V, fr, b, hI, S, rfl, m, hpar, ho, hw, hpe, hfv, hnb, hla⟩ := ih
    have hst' := m.stack
    rw [hst] at hst'
    cases fr with
    | nil => simp [words] at hst'
    | cons f fr =>
      obtain ⟨Z, c⟩ := f
      simp only [words, List.cons.injEq] at hst'
      obtain ⟨rfl, rfl, rfl, rfl, rfl⟩ := hst'
      rw [linkOf_bit] at h1 h2
      cases h1
      cases h2
      obtain ⟨s1, G1, PR1, b1, e1, m1, vk, ho1, -, hl1⟩ := m.next
      rw [hm] at e1
      cases e1
      have hpe1 := vk.pe
      refine ⟨rot, B, num, inv, Pl, G1, fw, PR1, v, I, c0, V, fr, b1, hI, S, rfl, m1, hpar, by rw [ho1]; exact ho, by rw [ho1]; exact hw, ?_, ?_, ?_, ?_⟩
      · show (_ : VInfo).pertinentEdge ≠ 0
        rw [hpe1]; exact hpe
      · show (_ : VInfo).pertinentEdge ∈ _
        rw [hpe1]; exact hfv
      · show Pl.nb (_ : VInfo).pertinentEdge = _
        rw [hpe1]; exact hnb
      · intro a ha
        show (_ : VInfo).pertinentEdge = _
        rw [hpe1]
        exact hla a (by rw [← hl1]; exact ha)

theorem linkExt_same {R Z : Nat} {ro zp : Bool} {s1 : EGraph} (h : s.linkExt R ro Z zp = some s1) : s1.p = s.p := by
  unfold EGraph.linkExt at h
  have key : ∀ {t t' : EGraph} {x y : Nat} {b : Bool}, t.setExt x b y = some t' → t'.p = t.p := by
    intro t t' x y b ht
    unfold EGraph.setExt at ht
    split at ht
    · cases ht; rfl
    · exact absurd ht (by simp)
  simp only [Option.bind_eq_bind, Option.bind_eq_some_iff] at h
  obtain ⟨x, -, t, ht, a, -, b, -, h⟩ := h
  split at h
  · exact (key h).trans (key ht)
  · exact (key h).trans (key ht)

theorem flipped_plane (hr : PReach s0) (hf : s0.g.dfsNumbered = false) (hs : IsSimple s0.g) {side wPrev ro zp : Bool} {root W R Z rOut zPrev : Nat}
    {rest : List Nat} {s1 s' : EGraph} (h : Merging s0 outer side root W wPrev s) (hst : s.p.g.stack = rOut :: R :: zPrev :: Z :: rest)
    (hl : (s.setG { s.p.g with stack := rest }).linkExt R ro Z zp = some s1) (hfl : s1.flipRoot R = some s') :
    ∃ o L, PlanePart (Live s0.g) s'.p.g o L := by
  obtain ⟨rot, B, num, inv, Pl, G, fw, PR, v, I, c0, V, fr, b, hI, S, rfl, m, -⟩ := merging_mg hr hf hs h
  have hst' := m.stack
  rw [hst] at hst'
  cases fr with
  | nil => simp [words] at hst'
  | cons f fr =>
    obtain ⟨Z, c⟩ := f
    simp only [words, List.cons.injEq] at hst'
    obtain ⟨rfl, rfl, rfl, rfl, rfl⟩ := hst'
    obtain ⟨rfl, hbZ, hlb, -⟩ := m.path
    obtain ⟨hbN, hb0, -⟩ := m.st.good.root b hlb
    have r : Rep B s1 G := (m.st.stack (words B.N G.o fr)).rep.of_eq (by rw [linkExt_same hl]) fun _ _ _ => by rw [linkExt_same hl]
    obtain ⟨g2, x2, e1, e2, e3, -, -, e6, -, -⟩ := flipRoot_spec r hlb ⟨hlb.1, hbN, hb0⟩
    rw [hfl] at e1
    cases e1
    have hA : B.A = Live s0.g := funext fun e => propext ((S.A e).trans (live_iff hI.inv).symm)
    have hL : update (raw G) (b + B.N) (raw G (b + B.N)).reverse = fun x => dir (update G.o (b + B.N) (!G.o (b + B.N)) x) (lists G.L x) := by
      funext x
      by_cases hx : x = b + B.N
      · subst hx
        rw [update_self, update_self]
        unfold raw lists dir
        cases G.o (b + B.N) <;> simp
      · rw [update_of_ne hx, update_of_ne hx]; rfl
    refine ⟨_, lists G.L, hA ▸ planePart_of (s := { s1.setG g2 with ext := x2 }) (r.fix.trans e3) m.st.good.core (hL ▸ e2) ?_ ?_⟩
    · intro x d hd
      show (g2.E _).nbr = x
      rw [e6]
      exact r.owner x d.1 (mem_raw'.2 hd)
    · intro x d hd
      obtain ⟨y, hy, _⟩ := m.st.good.pair x d hd
      exact ⟨y, hy⟩

/-- C53: `_EmbedBackEdgeToDescendant` puts the pending edge of `W` at one end of the list of the root and at one end of
the list of `W`, and the lists are a plane embedding before and after. -/
theorem embed_edge_step {s0 : PGraph} {outer : Bool} {s : EGraph} (hr : PReach s0) (hf : s0.g.dfsNumbered = false) (hs : IsSimple s0.g)
    {side wPrev : Bool} {root W : Nat} {s' : EGraph}
    (h : Merging s0 outer side root W wPrev s) (hst : s.p.g.stack = []) (he : s.embedBackEdge side root W wPrev = some s') :
    ∃ o L r, PlanePart (Live s0.g) s.p.g o L ∧ s.p.rdVI W = some r ∧ Live s0.g r.pertinentEdge ∧ (∀ x, r.pertinentEdge ∉ L x) ∧
      PlanePart (Live s0.g) s'.p.g o
        (update (update L root (r.pertinentEdge :: L root)) W (L W ++ [r.pertinentEdge ^^^ 1])) := by
  obtain ⟨rot, B, num, inv, Pl, G, fw, PR, v, I, c0, V, fr, b, hI, S, rfl, m, hpar, rfl, rfl, hpe, hfv, hnb, hla⟩ := merging_mg hr hf hs h
  cases fr with
  | cons f fr =>
    have := m.stack
    rw [hst] at this
    obtain ⟨Z, c⟩ := f
    simp [words] at this
  | nil =>
    obtain ⟨rfl, hl, P, Q, hX, hV, hIP⟩ := m.path
    have hQ : Q ≠ [] := by
      rintro rfl
      refine hpe (hla W ?_)
      rw [hX]; simp
    obtain ⟨s1, e1, -, hfin⟩ := m.st.embed hl hpar hX hQ (fun x hx => m.idle x (hIP x hx)) m.opn m.ring m.rim m.tight rfl hfv hnb
    rw [he] at e1
    cases e1
    have hA : B.A = Live s0.g := funext fun e => propext ((S.A e).trans (live_iff hI.inv).symm)
    have hd := m.st.wait.arc v _ hfv
    have hWN := m.st.good.bd b hl W (by rw [hX]; simp)
    refine ⟨G.o, lists G.L, s.p.VI W, st_plane' hI S m.st, rdVI_ok (by rw [m.st.rep.N]; omega), hA ▸ hd, ?_, ?_⟩
    · intro x hx
      obtain ⟨h1, h2⟩ := mem_lists.1 hx
      exact (off_iff.1 (m.st.wait.off v _ hfv) h1 x).1 h2
    · have := st_plane' hI S (hfin _ rfl).1
      have hL : lists (G.addEdge B.α B.N b W Q ⟨pe s W, hd⟩).L = update (update (lists G.L) (b + B.N) (pe s W :: lists G.L (b + B.N))) W
          (lists G.L W ++ [pe s W ^^^ 1]) := by
        funext x
        unfold lists
        rw [add_L hWN.2.1 hl.1]
        by_cases hx : x = W
        · subst hx
          rw [if_pos rfl, update_self, List.map_append]
          congr 1
        · rw [if_neg hx, update_of_ne hx]
          by_cases hx' : x = b + B.N
          · subst hx'
            rw [if_pos rfl, update_self]; rfl
          · rw [if_neg hx', update_of_ne hx']
      rw [hL] at this
      exact this

/-- C53: a round of `_MergeBicomps` moves the list of the root copy `R` behind the list of the vertex `Z`, and the lists
are a plane embedding before and after. -/
theorem merge_step {s0 : PGraph} {outer : Bool} {s : EGraph} (hr : PReach s0) (hf : s0.g.dfsNumbered = false) (hs : IsSimple s0.g)
    {side wPrev ro zp : Bool} {root W R Z rOut zPrev : Nat} {rest : List Nat} {s' : EGraph} (h : Merging s0 outer side root W wPrev s)
    (hst : s.p.g.stack = rOut :: R :: zPrev :: Z :: rest) (h1 : linkOf rOut = some ro) (h2 : linkOf zPrev = some zp)
    (hm : (s.setG { s.p.g with stack := rest }).mergeOne R ro Z zp = some s') :
    ∃ o L, PlanePart (Live s0.g) s.p.g o L ∧ L R ≠ [] ∧ PlanePart (Live s0.g) s'.p.g o (update (update L R []) Z (L Z ++ L R)) := by
  obtain ⟨rot, B, num, inv, Pl, G, fw, PR, v, I, c0, V, fr, b, hI, S, rfl, m, -⟩ := merging_mg hr hf hs h
  have hst' := m.stack
  rw [hst] at hst'
  cases fr with
  | nil => simp [words] at hst'
  | cons f fr =>
    obtain ⟨Z, c⟩ := f
    simp only [words, List.cons.injEq] at hst'
    obtain ⟨rfl, rfl, rfl, rfl, rfl⟩ := hst'
    rw [linkOf_bit] at h1 h2
    cases h1
    cases h2
    have hlc := m.path.2.2.1
    obtain ⟨s1, G1, PR1, b1, e1, m1, vk, ho1, hL1, hl1⟩ := m.next
    rw [hm] at e1
    cases e1
    refine ⟨G.o, lists G.L, st_plane' hI S m.st, ?_, ?_⟩
    · intro hh
      exact hlc.2 (List.map_eq_nil_iff.1 hh)
    · have := st_plane' hI S m1.st
      have hL : lists G1.L = update (update (lists G.L) (c + B.N) []) Z (lists G.L Z ++ lists G.L (c + B.N)) := by
        funext x
        unfold lists
        rw [hL1]
        by_cases hx : x = Z
        · subst hx; rw [update_self, update_self, List.map_append]
        · rw [update_of_ne hx, update_of_ne hx]
          by_cases hx' : x = c + B.N
          · subst hx'; rw [update_self, update_self]; rfl
          · rw [update_of_ne hx', update_of_ne hx']
      rw [hL, ho1] at this
      exact this

theorem rounded_plane (hr : PReach s0) (hf : s0.g.dfsNumbered = false) (hs : IsSimple s0.g) {side wPrev : Bool} {root W : Nat} {s' : EGraph} {d : Down}
    (h : Round s0 outer v side root W wPrev s) (hW : W ≠ root) (hd : s.downRound outer v side root W wPrev = some (s', d)) :
    ∃ o L, PlanePart (Live s0.g) s'.p.g o L := by
  obtain ⟨rot, B, num, inv, Pl, G, fw, PR, p, c0, m, hI, S, hap, rfl, hD, hat⟩ := round_at hr hf hs h
  obtain ⟨m', rfl⟩ := hat.pos hW
  obtain ⟨s1, d, hs1, hcase⟩ := downRound_spec hap.symm hD hat hW
  rw [hd] at hs1
  cases hs1
  rcases hcase with ⟨-, ⟨-, G1, fw1, PR1, st, -⟩, -⟩ | ⟨G1, fw1, PR1, ⟨-, hE⟩ | ⟨W1, w1, -, hD1, -⟩⟩
  · exact st_plane hI S st
  · exact st_plane hI S hE.st
  · exact st_plane hI S hD1.st

theorem orient_plane' {rot : Nat → List Nat} {B : Base} {num inv : Nat → Nat} {G : Gh B.D} {dn : List Nat} (hI : PInv s0 rot)
    (S : Sorted s0 rot B num inv) (g : Good B.N B.par B.α G) (h : Orient B G dn s) :
    PlanePart (Live s0.g) s.p.g (fun x => if x ∈ dn then false else G.o x) (lists G.L) := by
  have hA : B.A = Live s0.g := funext fun e => propext ((S.A e).trans (live_iff hI.inv).symm)
  have hL : turned G dn = fun x => dir (if x ∈ dn then false else G.o x) (lists G.L x) := by
    funext x
    unfold turned
    by_cases hx : x ∈ dn
    · rw [if_pos hx, if_pos hx]; rfl
    · rw [if_neg hx, if_neg hx]; rfl
  refine hA ▸ planePart_of h.fix g.core (hL ▸ h.links) ?_ ?_
  · intro x d hd
    exact h.owner x d.1 (mem_raw'.2 hd)
  · intro x d hd
    obtain ⟨y, hy, _⟩ := g.pair x d hd
    exact ⟨y, hy⟩

theorem orient_plane {rot : Nat → List Nat} {B : Base} {num inv : Nat → Nat} {G : Gh B.D} {dn : List Nat} (hI : PInv s0 rot)
    (S : Sorted s0 rot B num inv) (g : Good B.N B.par B.α G) (h : Orient B G dn s) : ∃ o L, PlanePart (Live s0.g) s.p.g o L :=
  ⟨_, _, orient_plane' hI S g h⟩

theorem turning_oriented (hr : PReach s0) (hf : s0.g.dfsNumbered = false) (hs : IsSimple s0.g) {n : Nat} (h : Turning s0 outer n s) :
    ∃ rot B num inv G dn, PInv s0 rot ∧ Sorted s0 rot B num inv ∧ Good B.N B.par B.α G ∧ Oriented B G n dn s ∧
      ∀ c, 1 ≤ c → c ≤ B.N → G.Live B.N c → G.o (c + B.N) = false := by
  induction h with
  | start hS =>
    obtain ⟨rot, B, num, inv, Pl, G, fw, hI, S, hv, R, -⟩ := stage_ready hr hf hs hS
    obtain ⟨G1, r1, g1, hm, hcp1, hX1, ho⟩ := normal R.st.rep R.st.good B.N le_rfl
    refine ⟨rot, B, num, inv, G1, [], hI, S, g1, ⟨r1.orient.stack [], ⟨by simp, by simp, by simp, by simp⟩, rfl, ?_⟩, fun c h1 h2 hl => (ho c h1 h2).1 hl⟩
    intro k hk hl
    have := hl.1; omega
  | next _ hn he ih =>
    obtain ⟨rot, B, num, inv, G, dn, hI, S, g, h, ho⟩ := ih
    rw [h.ori.N] at hn he
    obtain ⟨s2, dn2, h2, m2⟩ := orientBicomp_spec h hn (ho _ (by omega) hn)
    rw [he] at h2
    cases h2
    exact ⟨rot, B, num, inv, G, dn2, hI, S, g, m2, ho⟩

theorem turningIn_orient (hr : PReach s0) (hf : s0.g.dfsNumbered = false) (hs : IsSimple s0.g) (h : TurningIn s0 outer s) :
    ∃ rot B num inv G dn m todo, PInv s0 rot ∧ Sorted s0 rot B num inv ∧ Good B.N B.par B.α G ∧ Orient B G dn s ∧ Todo G m todo dn ∧ B.N ≤ m ∧
      s.p.g.stack = todo.flatMap fun w => [fl (G.o w), w] := by
  induction h with
  | @start n a s g hT hn ha ha0 hp =>
    obtain ⟨rot, B, num, inv, G, dn, hI, S, gd, h, ho⟩ := turning_oriented hr hf hs hT
    obtain ⟨t1, t2, t3⟩ := orientBicomp_start h hn ha ha0 hp ho
    exact ⟨rot, B, num, inv, G, dn, _, _, hI, S, gd, t1, t2, Nat.le_add_right _ _, t3⟩
  | @next flag W a rest s s1 g _ hst h1 ha hg ih =>
    obtain ⟨rot, B, num, inv, G, dn, m, todo, hI, S, gd, h, hT, hm, hst'⟩ := ih
    rw [hst] at hst'
    cases todo with
    | nil => simp at hst'
    | cons w todo =>
      simp only [List.flatMap_cons, List.cons_append, List.nil_append, List.cons.injEq] at hst'
      obtain ⟨rfl, rfl, rfl⟩ := hst'
      obtain ⟨s1', a', g', todo', e1, e2, e3, t1, t2, t3, -⟩ := orientOne (h.stack _) hT hm rfl
      have e1' : some s1 = some s1' := h1.symm.trans e1
      cases e1'
      rw [ha] at e2
      cases e2
      rw [hg] at e3
      cases e3
      exact ⟨rot, B, num, inv, G, _, m, todo', hI, S, gd, t2, t1, hm, t3⟩

/-- C53: `_OrientVerticesInBicomp` reverses the list of `W` if it is to be read backwards, and leaves the rotations. -/
theorem turn_step {s0 : PGraph} {outer : Bool} {s : EGraph} (hr : PReach s0) (hf : s0.g.dfsNumbered = false) (hs : IsSimple s0.g)
    {flag W a : Nat} {rest : List Nat} {s1 : EGraph} {g : Graph} (h : TurningIn s0 outer s) (hst : s.p.g.stack = flag :: W :: rest)
    (h1 : (if flag ≠ 0 then (s.setG { s.p.g with stack := rest }).invertVertex W else some (s.setG { s.p.g with stack := rest })) = some s1)
    (ha : s1.p.g.getArc W false = some a) (hg : pushKids flag s1.p.g.eSize s1.p.g a = some g) :
    ∃ o L, PlanePart (Live s0.g) s.p.g o L ∧ (flag ≠ 0 ↔ o W = true) ∧ PlanePart (Live s0.g) g (update o W false) L := by
  obtain ⟨rot, B, num, inv, G, dn, m, todo, hI, S, gd, h, hT, hm, hst'⟩ := turningIn_orient hr hf hs h
  rw [hst] at hst'
  cases todo with
  | nil => simp at hst'
  | cons w todo =>
    simp only [List.flatMap_cons, List.cons_append, List.nil_append, List.cons.injEq] at hst'
    obtain ⟨rfl, rfl, rfl⟩ := hst'
    obtain ⟨s1', a', g', todo', e1, e2, e3, t1, t2, t3, -⟩ := orientOne (h.stack _) hT hm rfl
    have e1' : some s1 = some s1' := h1.symm.trans e1
    cases e1'
    rw [ha] at e2
    cases e2
    rw [hg] at e3
    cases e3
    have hW : W ∉ dn := by
      have := hT.nodup
      simp only [List.cons_append, List.nodup_cons, List.mem_append, not_or] at this
      exact this.1.2
    refine ⟨_, _, orient_plane' hI S gd h, ?_, ?_⟩
    · rw [if_neg hW]
      unfold fl
      cases G.o W <;> simp
    · have := orient_plane' hI S gd t2
      have ho : (fun x => if x ∈ W :: dn then false else G.o x) = update (fun x => if x ∈ dn then false else G.o x) W false := by
        funext x
        by_cases hx : x = W
        · subst hx; rw [update_self, if_pos (by simp)]
        · rw [update_of_ne hx]; simp [hx]
      rw [ho] at this
      exact this

theorem joins_joining (hr : PReach s0) (hf : s0.g.dfsNumbered = false) (hs : IsSimple s0.g) {n : Nat} (h : Joins s0 outer n s) :
    ∃ rot B num inv σ L cp, PInv s0 rot ∧ Sorted s0 rot B num inv ∧ Joining B s σ L cp n := by
  induction h with
  | start hS ho =>
    obtain ⟨rot, B, num, inv, Pl, G, fw, hI, S, hv, R, -⟩ := stage_ready hr hf hs hS
    obtain ⟨s2, σ, L, cp, h2, J⟩ := R.oriented
    rw [ho] at h2
    cases h2
    exact ⟨rot, B, num, inv, σ, L, cp, hI, S, J⟩
  | next _ hn he ih =>
    obtain ⟨rot, B, num, inv, σ, L, cp, hI, S, J⟩ := ih
    rw [J.N] at hn he
    obtain ⟨s2, σ2, L2, cp2, h2, J2⟩ := J.step hn
    rw [he] at h2
    cases h2
    exact ⟨rot, B, num, inv, σ2, L2, cp2, hI, S, J2⟩

theorem joins_plane (hr : PReach s0) (hf : s0.g.dfsNumbered = false) (hs : IsSimple s0.g) {n : Nat} (h : Joins s0 outer n s) :
    ∃ L, PlanePart (Live s0.g) s.p.g (fun _ => false) L ∧ ∀ e, Live s0.g e → ∃ x, e ∈ L x := by
  obtain ⟨rot, B, num, inv, σ, L, cp, hI, S, J⟩ := joins_joining hr hf hs h
  have hA : B.A = Live s0.g := funext fun e => propext ((S.A e).trans (live_iff hI.inv).symm)
  refine ⟨lists L, hA ▸ planePart_of J.fix J.core J.links J.owner ?_, ?_⟩
  · intro x d hd
    obtain ⟨y, hy, _⟩ := J.pair x d hd
    exact ⟨y, hy⟩
  · intro e he
    rw [← hA] at he
    obtain ⟨x, hx⟩ := J.full ⟨e, he⟩
    exact ⟨x, mem_lists.2 ⟨he, hx⟩⟩

/-- C53: at every moment of gp_Embed between two elementary steps (a round of a walk down, the merging of two components,
the embedding of an edge, the inversion of a vertex, the joining of two components), the adjacency lists of the vertices
and root copies are a plane embedding of the edges embedded so far, once the lists of some vertices are read backwards. -/
theorem embed_moments {s0 : PGraph} (hr : PReach s0) (hf : s0.g.dfsNumbered = false) (hs : IsSimple s0.g) {outer : Bool} {s : EGraph}
    (h : Moment s0 outer s) : ∃ o L, PlanePart (Live s0.g) s.p.g o L := by
  cases h with
  | stage h => obtain ⟨o, L, hp, -⟩ := embed_stages hr hf hs h; exact ⟨o, L, hp⟩
  | before h =>
    obtain ⟨rot, B, num, inv, Pl, G, fw, PR, A, T, hI, S, -, -, -, -, h⟩ := before_downs hr hf hs h
    exact st_plane hI S h.bt.st
  | round h =>
    obtain ⟨rot, B, num, inv, Pl, G, fw, PR, p, c0, m, hI, S, -, -, h, -⟩ := round_at hr hf hs h
    exact st_plane hI S h.st
  | merging h =>
    obtain ⟨rot, B, num, inv, Pl, G, fw, PR, v, I, c0, V, fr, b, hI, S, -, m, -⟩ := merging_mg hr hf hs h
    exact st_plane hI S m.st
  | flipped h h1 _ _ h2 _ h3 => exact flipped_plane hr hf hs h h1 h2 h3
  | embedded h h1 h2 => obtain ⟨o, L, r, -, -, -, -, hp⟩ := embed_edge_step hr hf hs h h1 h2; exact ⟨o, _, hp⟩
  | rounded h h1 h2 => exact rounded_plane hr hf hs h h1 h2
  | turning h =>
    obtain ⟨rot, B, num, inv, G, dn, hI, S, g, h, -⟩ := turning_oriented hr hf hs h
    exact orient_plane hI S g h.ori
  | turningIn h =>
    obtain ⟨rot, B, num, inv, G, dn, m, todo, hI, S, g, h, -⟩ := turningIn_orient hr hf hs h
    exact orient_plane hI S g h
  | joins h => obtain ⟨L, hp, -⟩ := joins_plane hr hf hs h; exact ⟨_, L, hp⟩

end

deriving instance DecidableEq for Down

/-- A path of three vertices, and two more vertices joined to all of it. -/
def kite : PGraph := made 5 [.add 1 0 2 0, .add 2 0 3 0, .add 3 0 4 0, .add 3 0 5 0, .add 4 0 2 0, .add 5 0 2 0, .add 4 0 1 0, .add 5 0 1 0]
theorem kite_reach : PReach kite := made_reach _ _ (by decide) (by decide +kernel) (by decide)

/-- Hypotheses of C53: in the kite, the second traversal of the walk down for vertex 2 merges the component of root copy
10 at vertex 3, flipping it, and then embeds the edge of vertex 5. -/
example : PReach kite ∧ kite.g.dfsNumbered = false ∧ IsSimple kite.g ∧ ∃ s s1 s2 s3 s4 : EGraph, Merging kite false true 8 5 true s ∧
    s.p.g.stack = [0, 10, 0, 3] ∧ (s.setG { s.p.g with stack := [] }).linkExt 10 false 3 false = some s1 ∧ s1.flipRoot 10 = some s2 ∧
    (s.setG { s.p.g with stack := [] }).mergeOne 10 false 3 false = some s3 ∧ Merging kite false true 8 5 true s3 ∧ s3.p.g.stack = [] ∧
    s3.embedBackEdge true 8 5 true = some s4 := by
  refine ⟨kite_reach, by decide +kernel, simple_of_lists (N := 5) (by decide +kernel) (by decide +kernel), ?_⟩
  have hd : (do
      let (a, x) ← (ofP kite).embeddingInitialize
      let (b, y) ← a.embedStep false 5
      let (c, z) ← b.embedStep false 4
      let (d, w) ← c.embedStep false 3
      let re ← d.p.rdVI 2
      let e ← walkUps 2 d.p.g.eSize d re.fwdArcList
      let r ← e.p.rdVI 2
      let p ← e.p.wrVI 2 { r with pertinentRoots := 0 }
      let f := e.setP p
      let rc ← f.p.rdVI 3
      let (g, u) ← (f.setG f.p.g.clearStack).downSide false 2 false (3 + f.p.g.N)
      let W ← g.getExt (3 + f.p.g.N) true
      let q ← g.getExt W true
      let (s, t) ← g.downRound false 2 true (3 + f.p.g.N) W (if q = 3 + f.p.g.N then true else false)
      let rw ← s.p.rdVI 5
      let s1 ← (s.setG { s.p.g with stack := [] }).linkExt 10 false 3 false
      let _s2 ← s1.flipRoot 10
      let s3 ← (s.setG { s.p.g with stack := [] }).mergeOne 10 false 3 false
      let _s4 ← s3.embedBackEdge true 8 5 true
      return decide (x = .ok ∧ y = true ∧ z = true ∧ w = true ∧ r.sortedDFSChildList = 3 ∧ rc.pertinentRoots ≠ 0 ∧ u = true ∧ 3 + f.p.g.N = 8 ∧
        W ≠ 8 ∧ t = .at 5 true ∧ rw.pertinentEdge ≠ 0 ∧ s.p.g.stack = [0, 10, 0, 3] ∧ s3.p.g.stack = [])) = some true := by
    decide +kernel
  obtain ⟨⟨a, x⟩, h1, hd⟩ := Option.bind_eq_some_iff.1 hd
  obtain ⟨⟨b, y⟩, h2, hd⟩ := Option.bind_eq_some_iff.1 hd
  obtain ⟨⟨c, z⟩, h3, hd⟩ := Option.bind_eq_some_iff.1 hd
  obtain ⟨⟨d, w⟩, h4, hd⟩ := Option.bind_eq_some_iff.1 hd
  obtain ⟨re, h5, hd⟩ := Option.bind_eq_some_iff.1 hd
  obtain ⟨e, h6, hd⟩ := Option.bind_eq_some_iff.1 hd
  obtain ⟨r, h7, hd⟩ := Option.bind_eq_some_iff.1 hd
  obtain ⟨p, h8, hd⟩ := Option.bind_eq_some_iff.1 hd
  obtain ⟨rc, h9, hd⟩ := Option.bind_eq_some_iff.1 hd
  obtain ⟨⟨g, u⟩, h10, hd⟩ := Option.bind_eq_some_iff.1 hd
  obtain ⟨W, h11, hd⟩ := Option.bind_eq_some_iff.1 hd
  obtain ⟨q, h12, hd⟩ := Option.bind_eq_some_iff.1 hd
  obtain ⟨⟨s, t⟩, h13, hd⟩ := Option.bind_eq_some_iff.1 hd
  obtain ⟨rw', h14, hd⟩ := Option.bind_eq_some_iff.1 hd
  obtain ⟨s1, h15, hd⟩ := Option.bind_eq_some_iff.1 hd
  obtain ⟨s2, h16, hd⟩ := Option.bind_eq_some_iff.1 hd
  obtain ⟨s3, h17, hd⟩ := Option.bind_eq_some_iff.1 hd
  obtain ⟨s4, h18, hd⟩ := Option.bind_eq_some_iff.1 hd
  have hd := of_decide_eq_true (Option.some.inj hd)
  obtain ⟨rfl, rfl, rfl, rfl, k1, k2, rfl, k3, k4, rfl, k5, k6, k7⟩ := hd
  have hN : kite.g.N = 5 := by decide +kernel
  have S5 : Stage kite false 5 a := hN ▸ Stage.start h1
  have S2 : Stage kite false 2 d := .step (.step (.step S5 h2) h3) h4
  have B2 : Before kite false 2 3 (e.setP p) := k1 ▸ Before.first S2 h5 h6 h7 h8
  have R1 := Round.right B2 (by decide) h9 k2 h10 h11 h12
  have R2 := Round.next R1 (by rw [k3]; exact k4) h13
  have M := Merging.start R2 (by rw [k3]; decide) h14 k5
  rw [k3] at M
  exact ⟨s, s1, s2, s3, s4, M, k6, h15, h16, h17, .next M k6 rfl rfl h17, k7, h18⟩

/-- One vertex of `_OrientVerticesInBicomp`, for the example below. -/
def turnOne (s : EGraph) : Option EGraph :=
  match s.p.g.stack with
  | flag :: W :: rest =>
    (if flag ≠ 0 then (s.setG { s.p.g with stack := rest }).invertVertex W else some (s.setG { s.p.g with stack := rest })).bind fun s =>
      (s.p.g.getArc W false).bind fun a => (pushKids flag s.p.g.eSize s.p.g a).bind fun g => some (s.setG g)
  | _ => none

theorem turnOne_next {s0 : PGraph} {outer : Bool} {s s' : EGraph} (h : TurningIn s0 outer s) (ht : turnOne s = some s') : TurningIn s0 outer s' := by
  unfold turnOne at ht
  split at ht
  · next flag W rest hst =>
    obtain ⟨s1, h1, ht⟩ := Option.bind_eq_some_iff.1 ht
    obtain ⟨a, h2, ht⟩ := Option.bind_eq_some_iff.1 ht
    obtain ⟨g, h3, ht⟩ := Option.bind_eq_some_iff.1 ht
    cases ht
    exact .next h hst h1 h2 h3
  · exact absurd ht (by simp)

theorem stage_loop {s0 : PGraph} {outer : Bool} : ∀ {v : Nat} {s t : EGraph}, Stage s0 outer v s → embedLoop outer v s = some (t, true) → Stage s0 outer 0 t
  | 0, s, t, h, he => by simp only [embedLoop, Option.some.injEq, Prod.mk.injEq, and_true] at he; exact he ▸ h
  | v + 1, s, t, h, he => by
    unfold embedLoop at he
    obtain ⟨⟨s1, ok⟩, h1, he⟩ := Option.bind_eq_some_iff.1 he
    cases ok with
    | false => simp [pure] at he
    | true => exact stage_loop (.step h h1) he

/-- Hypotheses of `turn_step`: in the kite, vertex 5 is the last to be oriented, and its list is reversed. -/
example : ∃ s s' : EGraph, TurningIn kite false s ∧ s.p.g.stack = [16, 5] ∧ turnOne s = some s' := by
  have hd : ((ofP kite).embeddingInitialize.bind fun a => (embedLoop false 5 a.1).bind fun b =>
      ((b.1.setG b.1.p.g.clearStack).orientBicomp ((b.1.setG b.1.p.g.clearStack).p.g.N + 1 + 0)).bind fun c =>
      (c.p.g.getArc (c.p.g.N + 1 + 1) false).bind fun x => (c.p.g.push2 (c.p.g.N + 1 + 1) 0).bind fun g =>
      (turnOne (c.setG g)).bind fun d => (turnOne d).bind fun d => (turnOne d).bind fun d => (turnOne d).bind fun d => (turnOne d).bind fun _ =>
      some (decide (a.2 = .ok ∧ b.2 = true ∧ b.1.p.g.N = 5 ∧ c.p.g.N = 5 ∧ x ≠ 0 ∧ d.p.g.stack = [16, 5]))) = some true := by
    decide +kernel
  obtain ⟨⟨a, r⟩, h1, hd⟩ := Option.bind_eq_some_iff.1 hd
  obtain ⟨⟨b, ok⟩, h2, hd⟩ := Option.bind_eq_some_iff.1 hd
  obtain ⟨c, h3, hd⟩ := Option.bind_eq_some_iff.1 hd
  obtain ⟨x, h4, hd⟩ := Option.bind_eq_some_iff.1 hd
  obtain ⟨g, h5, hd⟩ := Option.bind_eq_some_iff.1 hd
  obtain ⟨d1, h6, hd⟩ := Option.bind_eq_some_iff.1 hd
  obtain ⟨d2, h7, hd⟩ := Option.bind_eq_some_iff.1 hd
  obtain ⟨d3, h8, hd⟩ := Option.bind_eq_some_iff.1 hd
  obtain ⟨d4, h9, hd⟩ := Option.bind_eq_some_iff.1 hd
  obtain ⟨d5, h10, hd⟩ := Option.bind_eq_some_iff.1 hd
  obtain ⟨k1, k2, k3, k4, k5, k6⟩ := of_decide_eq_true (Option.some.inj hd)
  dsimp only at k1 k2 k3
  subst k1
  subst k2
  have hN : kite.g.N = 5 := by decide +kernel
  have S5 : Stage kite false 5 a := hN ▸ Stage.start h1
  have S0 := stage_loop S5 h2
  have T1 := Turning.next (.start S0) (by show 0 < b.p.g.N; omega) h3
  have T2 := TurningIn.start T1 (by omega) h4 k5 h5
  exact ⟨d4, d5, turnOne_next (turnOne_next (turnOne_next (turnOne_next T2 h6) h7) h8) h9, k6, h10⟩

end Verif.Props
