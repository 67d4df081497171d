import Verif.Embed.Stages

/-
The states within one step of the main loop of the embedder: at the start of each traversal, at each round and after
each merging of components.
-/
namespace Verif.Embed
open Verif Verif.Graph Verif.EGraph Equiv Equiv.Perm Verif.Map Function
open Verif.Props (AncEq Anc)

variable {B : Base} {Pl : Plan B} {G : Gh B.D} {s : EGraph} {fw PR : Nat → List Nat} {v : Nat}

/-- The state while `_MergeBicomps` works. -/
structure Mg (Pl : Plan B) (I : Nat → Prop) (c0 W : Nat) (V : List Nat) (fr : List (Nat × Nat)) (s : EGraph) (G : Gh B.D) (fw PR : Nat → List Nat)
    (v b : Nat) : Prop where
  st : St Pl s G fw PR v
  path : Path I G PR c0 fr b W V
  idle : ∀ x, I x → Quiet Pl G fw v x
  opn : Open s (b + B.N) (G.X b) G.o
  ring : ∀ k, G.Live B.N k → k ≠ b → Ring s (k + B.N) (G.X k) G.o
  rim : ∃ A, G.Rim B.α B.N b A
  tight : ∀ k, G.Live B.N k → k ≠ b → G.Tight B.α B.N k
  reg : ∀ z, ∀ c ∈ PR z, G.Live B.N c ∧ B.par c = z
  stack : s.p.g.stack = words B.N G.o fr

/-- One round. -/
theorem Mg.next {I : Nat → Prop} {c0 W b Z c : Nat} {V : List Nat} {fr : List (Nat × Nat)} (m : Mg Pl I c0 W V ((Z, c) :: fr) s G fw PR v b) :
    ∃ s1 G1 PR1 b1, (s.setG { s.p.g with stack := words B.N G.o fr }).mergeOne (c + B.N) (G.o (c + B.N)) Z (!G.o Z) = some s1 ∧
      Mg Pl I c0 W V fr s1 G1 fw PR1 v b1 ∧ VKeep s.p s1.p ∧ G1.o = G.o ∧
      G1.L = update (update G.L (c + B.N) []) Z (G.L Z ++ G.L (c + B.N)) ∧ (G1.X c0).getLast? = (G.X c0).getLast? := by
  obtain ⟨h, hp, hI, op, hr, hrim, hti, hreg, hst⟩ := m
  obtain ⟨rfl, hbZ, hlb, hbP, ⟨Q0, hQ0⟩, b', V', hV, hp'⟩ := hp
  have hlb' := hp'.split.1
  obtain ⟨P, Q, R, hXb', hIP, hVR, hR0, hRp⟩ := hp'.split_ahead
  obtain ⟨hZ1, hZN, hZcp, hb'Z⟩ := hp'.cp h.good
  have hlt := B.par_lt b hlb.1 (h.good.root b hlb).1
  have h0 := h.stack (words B.N G.o fr)
  have op0 : Open (s.setG { s.p.g with stack := words B.N G.o fr }) (b + B.N) (G.X b) G.o := op.congr rfl
  have hr0 : ∀ k, G.Live B.N k → k ≠ b → Ring (s.setG { s.p.g with stack := words B.N G.o fr }) (k + B.N) (G.X k) G.o :=
    fun k hk hkb => (hr k hk hkb).congr (s' := s.setG { s.p.g with stack := words B.N G.o fr }) (fun _ _ _ => rfl) fun _ _ => rfl
  obtain ⟨s1, he1, h1, op1, hr1, vk1, st1, k1⟩ := h0.mergeOne hlb' hlb hbZ hXb' (fun x hx => hI x (hIP x hx)) op0 hr0 hbP
  have hlive : ∀ k, (G.merge B.N b' Z b Q).Live B.N k ↔ G.Live B.N k ∧ k ≠ b := merge_live ⟨hZ1, hZN⟩
  have hnd : (PR Z).Nodup := h.prl.nodup Z
  have hPR1 : ∀ z k, k ∈ update PR Z ((PR Z).erase b) z ↔ k ∈ PR z ∧ k ≠ b := by
    intro z k
    by_cases hz : z = Z
    · subst hz; rw [update_self, hnd.mem_erase_iff]; exact and_comm
    · rw [update_of_ne hz]
      refine ⟨fun hk => ⟨hk, ?_⟩, And.left⟩
      rintro rfl
      exact hz ((hreg z k hk).2.symm.trans hbZ)
  have hp1 : Path I (G.merge B.N b' Z b Q) (update PR Z ((PR Z).erase b)) c0 fr b' W V := by
    have hXm : (G.merge B.N b' Z b Q).X b' = W :: (Q0 ++ Z :: Q) := by rw [merge_X_self, hQ0]; simp
    cases fr with
    | nil =>
      obtain ⟨rfl, q1, _⟩ := hp'
      refine ⟨rfl, (hlive _).2 ⟨q1, by omega⟩, [], _, hXm, ?_, by simp⟩
      rw [hV, hVR, hR0 rfl, hQ0]; simp
    | cons f fr =>
      obtain ⟨Z', c'⟩ := f
      obtain ⟨b'', q5⟩ := hRp Z' c' fr rfl
      obtain ⟨rfl, q1, q2, q3, q4, _⟩ := hp'
      have q6 := q5.cp h.good
      have q7 := B.par_lt b' q2.1 (h.good.root b' q2).1
      refine ⟨rfl, q1, (hlive _).2 ⟨q2, by omega⟩, (hPR1 _ _).2 ⟨q3, by omega⟩, ⟨_, hXm⟩, b'', R, ?_, ?_⟩
      · rw [hXm, hV, hVR, hQ0]; simp
      refine q5.mono h.good (fun _ hx => hx) (m := b') ?_ ?_ ?_ (by omega)
      · intro k hk; exact merge_X_ne (by omega)
      · intro k hk hl; exact (hlive k).2 ⟨hl, by omega⟩
      · intro z hz; exact update_of_ne (by omega) _ _
  have hop1 : Open s1 (b' + B.N) ((G.merge B.N b' Z b Q).X b') (G.merge B.N b' Z b Q).o := by
    rw [merge_X_self]; exact op1
  refine ⟨s1, _, _, b', he1, ⟨h1, hp1, fun x hx => (hI x hx).mono (fun k hk => ((hlive k).1 hk).1) fun _ hf => hf, hop1, ?_, ?_, ?_, ?_, by rw [st1]; rfl⟩,
    ⟨vk1.parent, vk1.la, vk1.low, vk1.vis, vk1.pe, vk1.kids, vk1.fwd⟩, rfl, rfl, ?_⟩
  · intro k hk hkb
    obtain ⟨a1, a2⟩ := (hlive k).1 hk
    rw [merge_X_ne hkb]; exact hr1 k a1 a2 hkb
  · obtain ⟨A, hA⟩ := hrim
    exact (hti b' hlb' (by omega)).merge B.α_α (fun c h1 h2 => B.par_lt c h1 h2) h.good hlb' hlb hbZ hXb' hA
  · intro k hk hkb
    obtain ⟨a1, a2⟩ := (hlive k).1 hk
    exact (hti k a1 a2).merge_ne B.α_α h.good hlb' hlb hXb' a1 hkb a2
  · intro z k hk
    obtain ⟨a1, a2⟩ := (hPR1 z k).1 hk
    obtain ⟨a3, a4⟩ := hreg z k a1
    exact ⟨(hlive k).2 ⟨a3, a2⟩, a4⟩
  · by_cases hc : c0 = b'
    · subst hc
      rw [merge_X_self, hXb', List.getLast?_append, List.getLast?_append]
      simp [List.getLast?_cons]
    · rw [merge_X_ne hc]

/-- Where a traversal starts. -/
theorem DL.at_start {p : Past B} {side : Bool} {c0 W a : Nat} (h : DL Pl p side c0 s G fw PR v) (hst : s.p.g.stack = [])
    (hb : p.base = G.X c0) (hs : side = false ∨ 2 ≤ (G.X c0).length) (hW : s.getExt (c0 + B.N) side = some W) (ha : s.getExt W true = some a) :
    At Pl p s G fw PR v c0 W (if a = c0 + B.N then true else false) (2 * B.N) := by
  obtain ⟨hcN, hc0, hccp⟩ := h.st.good.root c0 h.live
  have hring := (h.rings c0 h.live).toRing
  have hRv : c0 + B.N < s.p.g.vSize := by rw [h.st.rep.vSize]; omega
  rw [getExt_eq hRv] at hW
  obtain ⟨x, T, hxT⟩ : ∃ x T, G.X c0 = x :: T := by
    cases hq : G.X c0 with
    | nil => exact absurd hq hring.ne
    | cons x T => exact ⟨x, T, rfl⟩
  have hr := hring
  rw [hxT] at hr
  have hx : s.ext (c0 + B.N) side = x := by rw [← h.or]; exact hr.first.1
  obtain ⟨hx1, hxN, hxcp⟩ := h.st.good.bd c0 h.live x (by rw [hxT]; simp)
  have hxv : x < s.p.g.vSize := by rw [h.st.rep.vSize]; omega
  rw [hx] at hW
  obtain rfl := Option.some.inj hW
  rw [getExt_eq hxv] at ha
  have ha := Option.some.inj ha
  left
  refine ⟨[], c0, x :: T, [], hxT ▸ mu_start h.st.good h.live fun k hk => (h.rings k hk).nodup, ⟨rfl, h.live, [], T, hxT, rfl, by simp⟩, ⟨[], by rw [hb, hxT]; rfl⟩, hst, by simp, ?_⟩
  have := hr.first_back (by
    rcases hs with hs | hs
    · exact .inl (h.or.trans hs)
    · right; rintro rfl; rw [hxT] at hs; simp at hs)
  rw [← this, ← ha]
  by_cases hq : s.ext x true = c0 + B.N
  · rw [if_pos hq, decide_eq_true hq]
  · rw [if_neg hq, decide_eq_false hq]

/-- The start of the first traversal. -/
theorem Between.left {c0 : Nat} (h : Between Pl s G fw PR v) (hl : G.Live B.N c0) (hp : B.par c0 = v) (hX : G.X c0 = [c0]) (hPR : PR c0 ≠ []) :
    ∃ p G0, DL Pl p false c0 (s.setG s.p.g.clearStack) G0 fw PR v ∧ p.base = G0.X c0 := by
  obtain ⟨hcN, hc0, hccp⟩ := h.st.good.root c0 hl
  have hc1 := hl.1
  have hpec0 : pe s c0 = 0 := by
    by_contra hh
    obtain ⟨h1, h2⟩ := h.dn.pe c0 hc1 hcN hh
    have := Pl.fw_far v _ ((h.st.sub v).subset h1)
    rw [h2] at this
    exact this hp
  obtain ⟨p, hpd⟩ : ∃ p : Past B, p = ⟨G, fw, PR, fun x => (s.p.VI x).visitedInfo, [c0], G, fw, PR⟩ := ⟨_, rfl⟩
  have hbase : p.base = [c0] := by rw [hpd]
  have o : Orig Pl p v c0 := by rw [hpd]; exact ⟨h.st.good, hl, hp, h.st.sub, h.st.act, h.rim, h.full, h.ord⟩
  have st0 : St Pl (s.setG s.p.g.clearStack) G fw PR v := h.st.stack []
  have dn0 : Dn Pl (s.setG s.p.g.clearStack) G fw PR v := h.dn.same fun _ => rfl
  have rg0 : Rings B (s.setG s.p.g.clearStack) G := h.rings.congr rfl
  have hpe : ∀ a, ([c0] : List Nat).getLast? = some a → pe (s.setG s.p.g.clearStack) a = 0 := by
    intro a ha; simp at ha; subst ha; exact hpec0
  by_cases ho : G.o (c0 + B.N) = false
  · refine ⟨p, G, ⟨st0, rg0, dn0, hl, hp, ho, by rw [hX]; exact hpe, .inr ⟨hX, hPR⟩, o, ?_, h.rim, ?_, ?_⟩, by rw [hbase, hX]⟩
    · rw [hpd]; exact Evo.refl _ _ _
    · rw [hpd]; exact Evo.refl _ _ _
    · rw [hpd]; exact fun _ => rfl
  · have hX' : (G.reflect c0).X c0 = [c0] := by rw [reflect_X', hX]; rfl
    refine ⟨p, G.reflect c0, ⟨st0.reflect hl, rg0.reflect h.st.good hl, dn0.reflect c0, reflect_live.2 hl, hp, ?_, by rw [hX']; exact hpe,
      .inr ⟨hX', hPR⟩, o, ?_, ?_, ?_, ?_⟩, by rw [hbase, hX']⟩
    · rw [reflect_o' hccp]
      simp at ho; simp [ho]
    · rw [hpd]; exact evo_reflect
    · intro k hk
      refine (h.rim k (reflect_live.1 hk)).next (fun _ hx => hx) ?_
      by_cases hkc : k = c0
      · subst hkc; rw [reflect_X']; exact .inr (List.Sublist.refl _)
      · rw [reflect_X hkc]; exact .inl (List.Sublist.refl _)
    · rw [hpd]; exact evo_reflect
    · rw [hpd]; exact fun _ => rfl

/-- The start of the second traversal. -/
theorem Ended.right {p : Past B} {outer : Bool} {c0 : Nat} (hE : Ended Pl p false outer c0 s G fw PR v) (hp : B.par c0 = v) :
    DL Pl { p with base := (G.X c0).reverse, gS := G, fS := fw, PS := PR } true c0 s (G.reflect c0) fw PR v := by
  have o := hE.orig
  have hXr : (G.reflect c0).X c0 = (G.X c0).reverse := reflect_X'
  have hcr := hE.st.good.root c0 hE.live
  refine ⟨hE.st.reflect hE.live, hE.rings.reflect hE.st.good hE.live, hE.dn.reflect c0, reflect_live.2 hE.live, hp, ?_, ?_, ?_,
    ⟨o.good, o.live, o.par, o.sub, o.act, o.rim, o.full, o.ord⟩, hE.evo.trans evo_reflect (reflect_live.2 hE.live), ?_, evo_reflect, hE.vis⟩
  · rw [reflect_o' hcr.2.2, hE.or]; rfl
  · intro a ha
    rw [hXr, List.getLast?_reverse] at ha
    exact hE.head a ha
  · left; rw [hXr, List.length_reverse]; exact hE.two
  · intro k hk
    refine (hE.rim k (reflect_live.1 hk)).next (fun _ hx => hx) ?_
    by_cases hkc : k = c0
    · subst hkc; rw [reflect_X']; exact .inr (List.Sublist.refl _)
    · rw [reflect_X hkc]; exact .inl (List.Sublist.refl _)

/-- A round that does not start at the root. -/
theorem At.pos {p : Past B} {c0 W m : Nat} {wPrev : Bool} (hat : At Pl p s G fw PR v c0 W wPrev m) (hW : W ≠ c0 + B.N) : ∃ m', m = m' + 1 := by
  refine Nat.exists_eq_succ_of_ne_zero ?_
  rintro rfl
  rcases hat with ⟨fr, b, V, K, hm0, hp, _⟩ | ⟨hh, _⟩
  · have := hp.ne_nil
    unfold mu at hm0
    cases V with
    | nil => exact this rfl
    | cons a V => simp at hm0
  · exact hW hh

/-- The start of `_OrientVerticesInBicomp`. -/
theorem orientBicomp_start {c a : Nat} {dn : List Nat} {g : Graph} (h : Oriented B G c dn s) (hc : c < s.p.g.N)
    (ha : s.p.g.getArc (s.p.g.N + 1 + c) false = some a) (ha0 : a ≠ 0) (hp : s.p.g.push2 (s.p.g.N + 1 + c) 0 = some g)
    (ho : ∀ c, 1 ≤ c → c ≤ B.N → G.Live B.N c → G.o (c + B.N) = false) :
    Orient B G dn (s.setG g) ∧ Todo G (B.N + (c + 1)) [c + 1 + B.N] dn ∧
      (s.setG g).p.g.stack = [c + 1 + B.N].flatMap fun w => [fl (G.o w), w] := by
  rw [h.ori.N] at hc ha hp
  have hR : B.N + 1 + c = c + 1 + B.N := by omega
  rw [hR] at ha hp
  have hT := h.todo
  have hv : c + 1 + B.N < s.p.g.vSize := by unfold Graph.vSize; rw [h.ori.N]; omega
  have hno : c + 1 + B.N ∉ dn := by
    intro hh
    have := hT.rng _ (by simpa using hh)
    omega
  rw [getArc_eq hv, h.ori.links.vlink _ false hv] at ha
  have ha := Option.some.inj ha
  have hl : G.Live B.N (c + 1) := by
    rw [← ha, Ne, endIn_zero_iff (h.ori.links.zero_not_mem _)] at ha0
    unfold turned at ha0
    rw [if_neg hno, raw_nil] at ha0
    exact ⟨by omega, ha0⟩
  have hsc : s.p.g.stackCap = B.g0.stackCap := h.ori.fix.stackCap
  have hrm := B.room
  rw [push2_ok _ _ (by rw [h.stack, List.length_nil]; omega), h.stack] at hp
  have hp := Option.some.inj hp
  subst hp
  refine ⟨h.ori.stack _, ⟨?_, ?_, ?_, ?_⟩, ?_⟩
  · simp only [List.cons_append, List.nil_append, List.nodup_cons]
    exact ⟨hno, by simpa using hT.nodup⟩
  · intro x hx
    simp only [List.cons_append, List.nil_append, List.mem_cons] at hx
    rcases hx with rfl | hx
    · exact ⟨by omega, by omega, by omega⟩
    · have := hT.rng x (by simpa using hx)
      exact ⟨this.1, by omega, by omega⟩
  · intro x hx hxN
    simp only [List.cons_append, List.nil_append, List.mem_cons] at hx
    rcases hx with rfl | hx
    · omega
    · exact hT.up x (by simpa using hx) hxN
  · intro k hk hh
    have := hT.closed k hk hh
    simp only [List.nil_append] at this
    simp [this]
  · show [0, c + 1 + B.N] = [fl (G.o (c + 1 + B.N)), c + 1 + B.N]
    rw [ho _ (by omega) hc hl]; rfl

end Verif.Embed
