import Verif.Embed.Walk

/-
_WalkDown keeps the state of the embedder.
-/
namespace Verif.Embed
open Verif Verif.Graph Verif.EGraph Equiv Equiv.Perm Verif.Map Function
open Verif.Props (AncEq Anc)

variable {B : Base} {Pl : Plan B} {G : Gh B.D} {s : EGraph} {fw PR : Nat → List Nat} {v : Nat}

theorem choose_total (h : St Pl s G fw PR v) {X Y : Nat} (hX : 1 ≤ X ∧ X ≤ B.N) (hY : 1 ≤ Y ∧ Y ≤ B.N) : ∃ c, s.choose v X Y = some c := by
  obtain ⟨px, h1⟩ := pertinent_total hX h
  obtain ⟨fx, h2⟩ := futurePertinent_total hX h
  obtain ⟨py, h3⟩ := pertinent_total hY h
  obtain ⟨fy, h4⟩ := futurePertinent_total hY h
  unfold EGraph.choose
  rw [h1, h2, h3, h4]
  simp only [Option.bind_eq_bind, Option.bind_some]
  split_ifs <;> exact ⟨_, rfl⟩

theorem bool_ne {a b : Bool} (h : a ≠ b) : a = !b := by cases a <;> cases b <;> simp_all

theorem reflect_o {c x : Nat} (h : G.cp x ≠ c) : (G.reflect c).o x = G.o x := if_neg h
theorem reflect_o' {c x : Nat} (h : G.cp x = c) : (G.reflect c).o x = !G.o x := if_pos h
theorem reflect_X {c k : Nat} (h : k ≠ c) : (G.reflect c).X k = G.X k := update_of_ne h _ _
theorem reflect_X' {c : Nat} : (G.reflect c).X c = (G.X c).reverse := update_self _ _ _

theorem words_reflect {I : Nat → Prop} {c c0 : Nat} (hg : Good B.N B.par B.α G) : ∀ {fr : List (Nat × Nat)} {b W : Nat} {V : List Nat},
    Path I G PR c0 fr b W V → b < c → words B.N (G.reflect c).o fr = words B.N G.o fr
  | [], _, _, _, _, _ => rfl
  | (Z, k) :: fr, b, W, V, h, hb => by
    obtain ⟨rfl, h1, h2, h3, h4, b', V', _, h5⟩ := h
    have hr := hg.root b h2
    have := B.par_lt b h2.1 hr.1
    have h7 := h5.cp hg
    unfold words
    rw [reflect_o (x := b + B.N) (by rw [hr.2.2]; omega), reflect_o (x := Z) (by rw [h7.2.2.1]; omega), words_reflect hg h5 (by omega)]

/-- The pertinent roots of a vertex that has any. -/
theorem pr_mem (h : St Pl s G fw PR v) {W : Nat} (hW : 1 ≤ W ∧ W ≤ B.N) (hp : pr s W ≠ 0) : pr s W ∈ PR W := by
  have := h.prl.head W hW.1 hW.2
  rw [this] at hp ⊢
  cases hW' : PR W with
  | nil => rw [hW'] at hp; simp at hp
  | cons a l => simp

theorem pertinent_spec (h : St Pl s G fw PR v) {W : Nat} (hW : 1 ≤ W ∧ W ≤ B.N) (ht : s.pertinent W = some true) :
    pe s W ≠ 0 ∨ PR W ≠ [] := by
  unfold EGraph.pertinent at ht
  obtain ⟨r, hr, ht⟩ := Option.bind_eq_some_iff.1 ht
  rw [← rdVI_some hr] at ht
  simp only [pure, Option.some.injEq, decide_eq_true_eq] at ht
  refine ht.imp id fun hh => ?_
  have := pr_mem h hW hh
  intro h0; rw [h0] at this; simp at this

theorem pertinent_none (h : St Pl s G fw PR v) {W : Nat} (hW : 1 ≤ W ∧ W ≤ B.N) (ht : s.pertinent W = some false) :
    pe s W = 0 ∧ PR W = [] := by
  unfold EGraph.pertinent at ht
  obtain ⟨r, hr, ht⟩ := Option.bind_eq_some_iff.1 ht
  rw [← rdVI_some hr] at ht
  simp only [pure, Option.some.injEq, decide_eq_false_iff_not, not_or, not_not] at ht
  refine ⟨ht.1, ?_⟩
  have h1 : pr s W = 0 := ht.2
  rw [h.prl.head W hW.1 hW.2] at h1
  cases hW' : PR W with
  | nil => rfl
  | cons a l =>
    rw [hW'] at h1
    have := (h.prl.bound W a (by rw [hW']; simp)).1
    simp at h1
    omega

/-- A pertinent vertex has an edge to embed, itself or below. -/
theorem Dn.need (h : Dn Pl s G fw PR v) {x : Nat} (hx : 1 ≤ x ∧ x ≤ B.N) (hp : Embed.pe s x ≠ 0 ∨ PR x ≠ []) : Need Pl G fw v x := by
  rcases hp with hp | hp
  · obtain ⟨h1, h2⟩ := h.pe x hx.1 hx.2 hp
    exact ⟨_, h1, .inl h2⟩
  · cases hl : PR x with
    | nil => exact absurd hl hp
    | cons k l =>
      have hk : k ∈ PR x := by rw [hl]; simp
      obtain ⟨f, f1, f2⟩ := h.wit x k hk
      obtain ⟨k1, k2, _⟩ := h.reg x k hk
      exact ⟨f, f1, .inr ⟨k, k1, k2, f2⟩⟩

/-- The chosen vertex is pertinent; it has edges to before `v` only if the other vertex has or is not pertinent. -/
theorem choose_spec' {X Y : Nat} {b : Bool} (h : s.choose v X Y = some (some b)) :
    ∃ fa pz fz, s.pertinent (if b then Y else X) = some true ∧ s.futurePertinent (if b then Y else X) v = some fa ∧
      s.pertinent (if b then X else Y) = some pz ∧ s.futurePertinent (if b then X else Y) v = some fz ∧ (fa = true → pz = true → fz = true) := by
  unfold EGraph.choose at h
  obtain ⟨px, hpx, h⟩ := Option.bind_eq_some_iff.1 h
  obtain ⟨fx, hfx, h⟩ := Option.bind_eq_some_iff.1 h
  obtain ⟨py, hpy, h⟩ := Option.bind_eq_some_iff.1 h
  obtain ⟨fy, hfy, h⟩ := Option.bind_eq_some_iff.1 h
  cases px <;> cases fx <;> cases py <;> cases fy <;> simp at h <;> subst h <;>
    first
    | exact ⟨_, _, _, hpx, hfx, hpy, hfy, by simp⟩
    | exact ⟨_, _, _, hpy, hfy, hpx, hfx, by simp⟩

theorem choose_none {X Y : Nat} (h : s.choose v X Y = some none) : s.pertinent X = some false ∧ s.pertinent Y = some false := by
  unfold EGraph.choose at h
  obtain ⟨px, hpx, h⟩ := Option.bind_eq_some_iff.1 h
  obtain ⟨fx, hfx, h⟩ := Option.bind_eq_some_iff.1 h
  obtain ⟨py, hpy, h⟩ := Option.bind_eq_some_iff.1 h
  obtain ⟨fy, hfy, h⟩ := Option.bind_eq_some_iff.1 h
  cases px <;> cases fx <;> cases py <;> cases fy <;> simp at h <;> exact ⟨hpx, hpy⟩

/-- The chosen vertex is pertinent. -/
theorem choose_spec {X Y : Nat} {b : Bool} (h : s.choose v X Y = some (some b)) : s.pertinent (if b then Y else X) = some true := by
  unfold EGraph.choose at h
  obtain ⟨px, hpx, h⟩ := Option.bind_eq_some_iff.1 h
  obtain ⟨fx, hfx, h⟩ := Option.bind_eq_some_iff.1 h
  obtain ⟨py, hpy, h⟩ := Option.bind_eq_some_iff.1 h
  obtain ⟨fy, hfy, h⟩ := Option.bind_eq_some_iff.1 h
  cases px <;> cases fx <;> cases py <;> cases fy <;> simp at h <;> subst h <;> simp [hpx, hpy]

theorem evo_reflect {c0 c : Nat} : Evo Pl c0 v G fw PR (G.reflect c) fw PR := by
  refine ⟨fun _ h => reflect_live.1 h, fun k _ _ => ?_, fun _ _ => rfl, fun _ h => .inl (reflect_live.2 h), fun _ => List.Sublist.refl _,
    fun _ _ => rfl, fun _ h => h, fun _ h => .inl h⟩
  by_cases hk : k = c
  · subst hk; exact .inr reflect_X'
  · exact .inl (reflect_X hk)

theorem DL.reflect {p : Past B} {side : Bool} {c0 c : Nat} (h : DL Pl p side c0 s G fw PR v) (hc : G.Live B.N c) (hne : c ≠ c0) :
    DL Pl p side c0 s (G.reflect c) fw PR v := by
  refine ⟨h.st.reflect hc, h.rings.reflect h.st.good hc, h.dn.reflect c, reflect_live.2 h.live, h.par, ?_, ?_, ?_, h.orig,
    h.evo.trans evo_reflect (reflect_live.2 h.live), ?_, h.run.trans evo_reflect (reflect_live.2 h.live), h.vis⟩
  · rw [reflect_o (by rw [(h.st.good.root c0 h.live).2.2]; exact hne.symm)]; exact h.or
  · rw [reflect_X hne.symm]; exact h.last
  · rw [reflect_X hne.symm]; exact h.big
  · intro k hk
    refine (h.rim k (reflect_live.1 hk)).next (fun _ hx => hx) ?_
    by_cases hkc : k = c
    · subst hkc; rw [reflect_X']; exact .inr (List.Sublist.refl _)
    · rw [reflect_X hkc]; exact .inl (List.Sublist.refl _)

/-- A change that concerns neither the vertices nor the links of the outer faces. -/
theorem DL.same {p : Past B} {side : Bool} {c0 : Nat} (h : DL Pl p side c0 s G fw PR v) {s' : EGraph} (hs : St Pl s' G fw PR v)
    (he : s'.ext = s.ext) (hpe : ∀ x, pe s' x = pe s x) (hv : ∀ x, (s'.p.VI x).visitedInfo = (s.p.VI x).visitedInfo) :
    DL Pl p side c0 s' G fw PR v := by
  refine ⟨hs, h.rings.congr he, h.dn.same hpe, h.live, h.par, h.or, ?_, h.big, h.orig, h.evo, h.rim, h.run, ?_⟩
  · intro a ha; rw [hpe]; exact h.last a ha
  · intro x; rw [hv]; exact h.vis x

theorem DL.stack {p : Past B} {side : Bool} {c0 : Nat} (h : DL Pl p side c0 s G fw PR v) (st : List Nat) :
    DL Pl p side c0 (s.setG { s.p.g with stack := st }) G fw PR v :=
  h.same (h.st.stack st) rfl (fun _ => rfl) fun _ => rfl

theorem DL.full {p : Past B} {side : Bool} {c0 : Nat} (h : DL Pl p side c0 s G fw PR v) : ∀ u, u < v → fw u = Pl.fw0 u := fun u hu => by
  rw [h.evo.fwu u (by omega), h.orig.full u hu]

theorem DL.frange {p : Past B} {side : Bool} {c0 : Nat} (h : DL Pl p side c0 s G fw PR v) : ∀ f ∈ p.fw v, 1 ≤ Pl.nb f ∧ Pl.nb f ≤ B.N :=
  fun f hf => (Pl.fw_range v f ((h.orig.sub v).subset hf)).2.2

theorem DL.arcs {p : Past B} {side : Bool} {c0 : Nat} (h : DL Pl p side c0 s G fw PR v) : ∀ f ∈ fw v, B.A f :=
  fun f hf => Pl.fw_arc v f ((h.st.sub v).subset hf)

theorem Path.done {s' : EGraph} {G' : Gh B.D} {c0 b W : Nat} {V : List Nat} {fr : List (Nat × Nat)} (h : Path (Done Pl s G fw v) G PR c0 fr b W V)
    (hg : Good B.N B.par B.α G) (hG : G' = G) (hpe : ∀ x, pe s' x = pe s x) : Path (Done Pl s' G' fw v) G' PR c0 fr b W V := by
  subst hG
  exact h.mono hg (fun x hx => ⟨hx.1, by rw [hpe]; exact hx.2⟩) (m := b + 1) (fun _ _ => rfl) (fun _ _ hk => hk) (fun _ _ => rfl) (by omega)

/-- The position of the walk, with a bound for what is ahead. -/
def At (Pl : Plan B) (p : Past B) (s : EGraph) (G : Gh B.D) (fw PR : Nat → List Nat) (v c0 W : Nat) (wPrev : Bool) (m : Nat) : Prop :=
  (∃ fr b V K, mu G c0 fr V ≤ m ∧ Path (Done Pl s G fw v) G PR c0 fr b W V ∧ Fr Pl p v c0 s PR K V ∧ s.p.g.stack = words B.N G.o fr ∧
    (fr ≠ [] → pe s W ≠ 0 ∨ PR W ≠ []) ∧ wPrev = !G.o W) ∨
  (W = c0 + B.N ∧ s.p.g.stack = [] ∧ 2 ≤ (G.X c0).length ∧ ∀ x ∈ G.X c0, Done Pl s G fw v x)

/-- The choice of the end by which a component is entered. -/
theorem entered_of {p : Past B} {side : Bool} {c0 W b c x z : Nat} {V : List Nat} {fr : List (Nat × Nat)} (h : DL Pl p side c0 s G fw PR v)
    (hp : Path (Done Pl s G fw v) G PR c0 fr b W V) (hc : c ∈ PR W) (hx : (G.X c).head? = some x) (hz : (G.X c).getLast? = some z)
    {fx pz fz : Bool} (hpx : s.pertinent x = some true) (hfx : s.futurePertinent x v = some fx) (hpz : s.pertinent z = some pz)
    (hfz : s.futurePertinent z v = some fz) (hcho : fx = true → pz = true → fz = true) (frx : Fresh Pl s G v x) (frz : Fresh Pl s G v z) :
    Entered Pl p v c0 c (G.X c) := by
  obtain ⟨hW1, hWN, hWcp, hbW⟩ := hp.cp h.st.good
  obtain ⟨hlc, hcW, hvW⟩ := h.dn.reg W c hc
  obtain ⟨hcN, hc0, hccp⟩ := h.st.good.root c hlc
  have hlt := B.par_lt c hlc.1 hcN
  have hne : c ≠ c0 := by
    rintro rfl; rw [h.par] at hcW; omega
  have hl := h.evo.X c hlc hne
  have hin : ∀ y ∈ G.X c, (1 ≤ y ∧ y ≤ B.N) ∧ p.G0.cp y = c ∧ v < y := by
    intro y hy
    obtain ⟨y1, y2, y3⟩ := h.st.good.bd c hlc y hy
    have hy0 : y ∈ p.G0.X c := by rcases hl with hl | hl <;> rw [hl] at hy <;> simpa using hy
    refine ⟨⟨y1, y2⟩, (h.orig.good.bd c (h.evo.live c hlc) y hy0).2.2, ?_⟩
    have q1 := h.st.good.anc B.par_lt y y1 y2
    rw [y3] at q1
    have := B.anc_le q1 y1 y2
    omega
  have hneed : ∀ y ∈ G.X c, ∀ u, Need Pl G fw u y ↔ Need Pl p.G0 p.fw u y := fun y hy u =>
    h.evo.need h.st.good h.live h.orig.par h.frange hlc hne (hin y hy).2.1 (hin y hy).2.2
  have hxm : x ∈ G.X c := List.mem_of_head? hx
  have hzm : z ∈ G.X c := List.mem_of_getLast? hz
  have hnx := h.dn.need (hin x hxm).1 (pertinent_spec h.st (hin x hxm).1 hpx)
  refine ⟨h.evo.live c hlc, hne, ?_, by rw [hcW]; exact hvW, hl, (h.rings c hlc).nodup, ?_, ?_, ?_⟩
  · refine AncEq.trans (hp.anc' h.st.good) ?_
    refine .up hc0 ?_
    rw [hcW]; exact .refl _
  · obtain ⟨f, f1, f2⟩ := h.dn.wit W c hc
    exact ⟨f, h.run.fwv f f1, (h.st.sub v).subset f1, f2⟩
  · intro a ha
    rw [hx] at ha
    cases ha
    exact ((hneed x hxm v).1 hnx).toV h.orig.sub
  · intro hE a z' ha hz' hU
    rw [hx] at ha
    rw [hz] at hz'
    cases ha
    cases hz'
    cases hap : B.ap
    case true => exact .inl (.inr ⟨hap, z, (hin z hzm).1, hang_self (hin z hzm).1⟩)
    have hU := hU.resolve_right fun k => by rw [hap] at k; exact absurd k.1 (by decide)
    have hfx1 : fx = true := by
      by_contra hh
      have hff : fx = false := by cases fx <;> simp_all
      rw [hff] at hfx
      have hid := idle_of_test (hin x hxm).1 h.st frx hfx
      obtain ⟨u, u1, f, u2, u3⟩ := hU
      refine hid.not_need h.st.sub u1 ((hneed x hxm u).2 ⟨f, ?_, u3.2⟩)
      rw [h.orig.full u u1]; exact u2
    cases pz with
    | true =>
      left
      have h1 := hcho hfx1 rfl
      rw [h1] at hfz
      obtain ⟨u, u1, u2⟩ := act_of_test h.full (hin z hzm).1 (hin z hzm).2.2 h.st frz hfz
      exact Act.toU h.orig.sub ⟨u, u1, (hneed z hzm u).1 u2⟩
    | false =>
      obtain ⟨z1, z2⟩ := pertinent_none h.st (hin z hzm).1 hpz
      have hnz : ¬ Need Pl p.G0 p.fw v z := fun hh =>
        (h.dn.pert h.arcs (hin z hzm).2.2 ((hneed z hzm v).2 hh)).elim (fun k => k z1) fun k => k z2
      have hem : ∀ y, y ∈ G.X c ↔ y ∈ p.G0.X c := by
        intro y; rcases hl with hl | hl <;> rw [hl]; simp
      have hzend : (p.G0.X c).head? = some z ∨ (p.G0.X c).getLast? = some z := by
        rcases hl with hl | hl <;> rw [hl] at hz
        · exact .inr hz
        · rw [List.getLast?_reverse] at hz; exact .inl hz
      rcases hE hap c (h.evo.live c hlc) (by rw [hcW]; exact hvW) with h1 | ⟨a, _, h2⟩
      · left
        obtain ⟨u, u1, u2⟩ := h1 z hzend
        refine Act.toU h.orig.sub ⟨u, ?_, u2⟩
        have : u ≠ v := by rintro rfl; exact hnz u2
        omega
      · right
        have hxa := h2 x ((hem x).1 hxm) ⟨v, by omega, (hneed x hxm v).1 hnx⟩
        intro y hy hn
        rw [hxa]
        exact h2 y ((hem y).1 hy) ⟨v, by omega, hn⟩

/-- The stack is empty, or its second entry is a root. -/
def Below (B : Base) (g : Graph) : Prop := g.stack = [] ∨ ∃ a c T, 1 ≤ c ∧ g.stack = a :: (c + B.N) :: T

/-- A state in which the embedder is blocked. -/
def Stuck (Pl : Plan B) (s : EGraph) (v : Nat) : Prop := Below B s.p.g ∧ ∃ G fw PR, St Pl s G fw PR v ∧ Rings B s G ∧ Dn Pl s G fw PR v

theorem Stuck.hand (h : Stuck Pl s v) (a r : Nat) : Stuck Pl (s.hand a r) v := by
  obtain ⟨hb, G, fw, PR, st, rg, dn⟩ := h
  refine ⟨hb, G, fw, PR, ⟨st.rep.of_eq rfl fun _ _ _ => rfl, st.good, st.fwl, st.wait, st.sub, st.nbr, st.cover, st.prl, st.kids, st.kh, st.low,
    st.la, st.fp, st.act, st.all, st.rn⟩, rg.congr rfl, dn.same fun _ => rfl⟩

/-- A state handed to the isolation of an obstruction. -/
def Given (Pl : Plan B) (s : EGraph) (v : Nat) : Prop := Stuck Pl s v ∧ s.ic.v = v ∧ ∃ c, 1 ≤ c ∧ s.ic.r = c + B.N

theorem Stuck.given (h : Stuck Pl s v) {c : Nat} (hc : 1 ≤ c) : Given Pl (s.hand v (c + B.N)) v := ⟨h.hand v _, rfl, c, hc, rfl⟩

theorem descend_spec {p : Past B} {side : Bool} {c0 W b c : Nat} {V : List Nat} {K : List (Nat × List Nat × List Nat)} {fr : List (Nat × Nat)}
    (h : DL Pl p side c0 s G fw PR v) (hp : Path (Done Pl s G fw v) G PR c0 fr b W V) (hF : Fr Pl p v c0 s PR K V)
    (hst : s.p.g.stack = words B.N G.o fr) (hhd : (PR W).head? = some c) (hpW : pe s W = 0)
    {m : Nat} (hm : mu G c0 fr V ≤ m + 1) : ∃ s' d, s.descend v W (!G.o W) c = some (s', d) ∧
    ((d = .blocked ∧ Stuck Pl s' v ∧ (Ends0 Pl p v → B.Bad)) ∨
      ∃ W' wP' G', d = .at W' wP' ∧ DL Pl p side c0 s' G' fw PR v ∧ At Pl p s' G' fw PR v c0 W' wP' m) := by
  generalize he : s.descend v W (!G.o W) c = o
  have hc : c ∈ PR W := List.mem_of_head? hhd
  obtain ⟨hW1, hWN, hWcp, hbW⟩ := hp.cp h.st.good
  obtain ⟨hlc, hcW, hvW⟩ := h.dn.reg W c hc
  obtain ⟨hcN, hc0, hccp⟩ := h.st.good.root c hlc
  have hc1 := hlc.1
  have hlt := B.par_lt c hc1 hcN
  have hne : c ≠ c0 := by
    rintro rfl; rw [h.par] at hcW; omega
  unfold EGraph.descend at he
  have hdep := hp.depth h.st.good
  have hcap : 6 * B.N ≤ s.p.g.stackCap := by rw [h.st.rep.fix.stackCap]; exact B.room
  obtain ⟨g1, hg1⟩ : ∃ g1, s.p.g.push2 W (bit (!G.o W)) = some g1 := ⟨_, push2_ok _ _ (by rw [hst, words_length]; omega)⟩
  rw [hg1] at he
  simp only [Option.bind_eq_bind, Option.bind_some] at he
  have hg1' := push2_some hg1
  rw [hst] at hg1'
  have hsN : (s.setG g1).p.g.N = B.N := by rw [hg1']; exact h.st.rep.N
  rw [hsN] at he
  have hcap1 : 6 * B.N ≤ (s.setG g1).p.g.stackCap := by rw [hg1']; exact hcap
  have h1 : DL Pl p side c0 (s.setG g1) G fw PR v := by rw [hg1']; exact h.stack _
  have hst1 : (s.setG g1).p.g.stack = bit (!G.o W) :: W :: words B.N G.o fr := by rw [hg1']; rfl
  have hp1 : Path (Done Pl (s.setG g1) G fw v) G PR c0 fr b W V := hp.done h.st.good rfl fun _ => rfl
  have hF1 : Fr Pl p v c0 (s.setG g1) PR K V := Fr.mono (s := s) (s' := s.setG g1) (PR := PR) (fun _ hh => hh) (fun _ _ hh => hh) hF
  have hpW1 : pe (s.setG g1) W = 0 := hpW
  generalize s.setG g1 = s1 at he h1 hst1 hp1 hsN hF1 hpW1 hcap1
  have hRv : c + B.N < s1.p.g.vSize := by rw [h1.st.rep.vSize]; omega
  rw [getExt_eq hRv, getExt_eq hRv] at he
  simp only [Option.bind_some] at he
  generalize hX : s1.ext (c + B.N) false = X at he
  generalize hY : s1.ext (c + B.N) true = Y at he
  -- the neighbours of the root
  have hring := (h1.rings c hlc).toRing
  have hends : ∀ β, 1 ≤ s1.ext (c + B.N) β ∧ s1.ext (c + B.N) β ≤ B.N := by
    intro β
    have key : s1.ext (c + B.N) β ∈ G.X c := by
      by_cases hβ : β = G.o (c + B.N)
      · cases hXc : G.X c with
        | nil => exact absurd hXc hring.ne
        | cons x T =>
          rw [hXc] at hring
          rw [hβ, hring.first.1]; simp
      · rcases List.eq_nil_or_concat (G.X c) with hh | ⟨T, x, hXc⟩
        · exact absurd hh hring.ne
        · rw [List.concat_eq_append] at hXc
          rw [hXc] at hring ⊢
          have : β = !G.o (c + B.N) := bool_ne hβ
          rw [this, hring.last.2]; simp
    have := h.st.good.bd c hlc _ key
    exact ⟨this.1, this.2.1⟩
  have hXr := hends false
  have hYr := hends true
  rw [hX] at hXr
  rw [hY] at hYr
  have hXv : X < s1.p.g.vSize := by rw [h1.st.rep.vSize]; omega
  have hYv : Y < s1.p.g.vSize := by rw [h1.st.rep.vSize]; omega
  rw [getExt_eq hXv, getExt_eq hYv] at he
  simp only [Option.bind_some] at he
  generalize ha : s1.ext X true = a at he
  generalize ha' : s1.ext Y false = a' at he
  obtain ⟨s2, hs2, st2, of2, fr2, _⟩ := updateFuture_spec hXr h1.st
  rw [h1.st.rep.N] at hs2
  rw [hs2] at he
  simp only [Option.bind_some] at he
  obtain ⟨s3, hs3, st3, of3, frY, fr3⟩ := updateFuture_spec hYr st2
  rw [hs3] at he
  simp only [Option.bind_some] at he
  obtain ⟨ch, hch⟩ := choose_total st3 hXr hYr
  rw [hch] at he
  simp only [Option.bind_some] at he
  have frX : Fresh Pl s3 G v X := by
    by_cases hXY : X = Y
    · rw [hXY]; exact frY
    · unfold Fresh; rw [fr3 X hXY]; exact fr2
  have of := of2.trans of3
  have hpe3 : ∀ x, pe s3 x = pe s1 x := of.vk.pe
  have h3 : DL Pl p side c0 s3 G fw PR v := h1.same st3 of.ext hpe3 of.vk.vis
  have hst3 : s3.p.g.stack = bit (!G.o W) :: W :: words B.N G.o fr := by rw [of.g]; exact hst1
  have hp3 : Path (Done Pl s3 G fw v) G PR c0 fr b W V := hp1.done h.st.good rfl hpe3
  have hext3 : s3.ext = s1.ext := of.ext
  -- descending by either link
  have key : ∀ β : Bool, ∀ g4 : Graph, s3.p.g.push2 (c + B.N) (bit β) = some g4 → s3.choose v X Y = some (some β) →
      ∃ G', DL Pl p side c0 (s3.setG g4) G' fw PR v ∧
        At Pl p (s3.setG g4) G' fw PR v c0 (if β then Y else X) (if β then !decide (a' = c + B.N) else decide (a = c + B.N)) m := by
    intro β g4 hg4 hcho
    have hg4' := push2_some hg4
    rw [hst3] at hg4'
    -- turned so that the root is left by β
    obtain ⟨G', hD, hP, ho, hoW, hwd, hXc, hlv, hmu⟩ : ∃ G', DL Pl p side c0 s3 G' fw PR v ∧ Path (Done Pl s3 G' fw v) G' PR c0 fr b W V ∧
        G'.o (c + B.N) = β ∧ G'.o W = G.o W ∧ words B.N G'.o fr = words B.N G.o fr ∧ G'.Live B.N c ∧
        (∀ k, G.Live B.N k → G'.Live B.N k) ∧ mu G' c0 fr V ≤ mu G c0 fr V := by
      by_cases hβ : G.o (c + B.N) = β
      · exact ⟨G, h3, hp3, hβ, rfl, rfl, hlc, fun _ hk => hk, le_rfl⟩
      · refine ⟨G.reflect c, h3.reflect hlc hne, ?_, ?_, reflect_o (by omega), words_reflect h.st.good hp3 (by omega), reflect_live.2 hlc,
          fun _ hk => reflect_live.2 hk, ?_⟩
        · refine hp3.mono h.st.good ?_ (m := c) (fun k hk => reflect_X (by omega)) (fun k _ hl => reflect_live.2 hl) (fun _ _ => rfl) (by omega)
          intro x hx
          exact ⟨hx.1.mono (fun k hk => reflect_live.1 hk) (fun _ hf => hf), hx.2⟩
        · rw [reflect_o' hccp]
          exact (bool_ne (Ne.symm hβ)).symm
        · refine mu_le fun k hk _ hkf => ⟨reflect_live.1 hk, hkf, ?_⟩
          by_cases hkc : k = c
          · subst hkc; rw [reflect_X']; simp
          · rw [reflect_X hkc]
    have hr' := (hD.rings c hXc).toRing
    obtain ⟨x, T, hxT⟩ : ∃ x T, G'.X c = x :: T := by
      cases hq : G'.X c with
      | nil => exact absurd hq hr'.ne
      | cons x T => exact ⟨x, T, rfl⟩
    have hr'' := hr'
    rw [hxT] at hr''
    have hx : x = if β then Y else X := by
      have := hr''.first.1
      rw [ho, hext3] at this
      cases β
      · rw [hX] at this; simpa using this.symm
      · rw [hY] at this; simpa using this.symm
    have hxr : 1 ≤ x ∧ x ≤ B.N := by rw [hx]; split; exacts [hYr, hXr]
    obtain ⟨fa, pz, fz, q1, q2, q3, q4, q5⟩ := choose_spec' hcho
    have hz : (G'.X c).getLast? = some (if β then X else Y) := by
      rcases List.eq_nil_or_concat (G'.X c) with hh | ⟨T', z, hz⟩
      · exact absurd hh hr'.ne
      · rw [List.concat_eq_append] at hz
        rw [hz] at hr'
        have := hr'.last.2
        rw [ho, hext3] at this
        rw [hz, List.getLast?_append]
        cases β
        · simp only [Bool.not_false] at this; rw [hY] at this; simp [this]
        · simp only [Bool.not_true] at this; rw [hX] at this; simp [this]
    have hfr : ∀ y, Fresh Pl s3 G v y → Fresh Pl s3 G' v y := fun y hy hh => ⟨(hy hh).1, hlv _ (hy hh).2.1, (hy hh).2.2⟩
    have hEn : Entered Pl p v c0 c (G'.X c) := by
      refine entered_of hD hP hc (x := if β then Y else X) ?_ hz q1 q2 q3 q4 q5 ?_ ?_
      · rw [hxT, hx]; rfl
      · cases β
        · exact hfr _ frX
        · exact hfr _ frY
      · cases β
        · exact hfr _ frY
        · exact hfr _ frX
    refine ⟨G', ?_, .inl ⟨(W, c) :: fr, c, G'.X c ++ V, (c, [], G'.X c) :: K, ?_, ?_, ?_, ?_, ?_, ?_⟩⟩
    · rw [hg4']; exact hD.stack _
    · have := mu_enter (W := W) (V := V) hXc hcN hne (fr := fr) (fun hh => by have := hdep.2 c hh; omega)
      omega
    · refine ⟨rfl, hcW, hXc, hc, ⟨T, by rw [hxT, hx]⟩, b, V, rfl, ?_⟩
      exact hP.done hD.st.good rfl fun _ => rfl
    · refine ⟨V, rfl, (hD.rings c hXc).ne, hF1.mono ?_ (fun _ _ hh => hh), ?_, hEn, ?_, ?_, ?_⟩
      · intro y hy; show pe s3 y = 0; rw [hpe3]; exact hy
      · obtain ⟨Q, hQ⟩ := hp.head
        rw [hcW, hQ]; rfl
      · intro q hq haq
        obtain ⟨r1, _, r2⟩ := hp.ahead h.st.good q hq
        have r3 := live_anc h.st.good hlc haq r1.1 r1.2
        have r4 := B.anc_le (h.st.good.anc B.par_lt q r1.1 r1.2) r1.1 r1.2
        have hcp1 : 1 ≤ G.cp q := by
          have := anc_range B r1 (h.st.good.anc B.par_lt q r1.1 r1.2)
          exact this.1
        have := B.anc_le r3 hcp1 (by omega)
        omega
      · rw [hcW]; show pe s3 W = 0; rw [hpe3]; exact hpW1
      · rw [hcW]
        intro hlow k hk
        have hord := (h.orig.ord W).sublist (h.evo.pr W)
        cases hl : PR W with
        | nil => rw [hl] at hc; simp at hc
        | cons a l =>
          rw [hl] at hord hhd hk
          simp only [List.head?_cons, Option.some.injEq] at hhd
          subst hhd
          rcases List.mem_cons.1 hk with rfl | hk
          · exact hlow
          · exact (List.pairwise_cons.1 hord).1 k hk hlow
    · rw [hg4']
      show _ = bit (G'.o (c + B.N)) :: (c + B.N) :: bit (!G'.o W) :: W :: words B.N G'.o fr
      rw [ho, hoW, hwd]; rfl
    · intro _
      have h5 := choose_spec hcho
      rw [← hx] at h5 ⊢
      exact pertinent_spec hD.st hxr h5
    · rw [← hx]
      cases β
      · have := hr''.first_back (.inl ho)
        rw [hext3] at this
        simp only [Bool.false_eq_true, if_false] at hx ⊢
        rw [← this, hx, ha]
      · have := hr''.first_back' (.inl ho)
        rw [hext3] at this
        simp only [if_true] at hx ⊢
        rw [← this, hx, ha']
  have hpush : ∀ β : Bool, ∃ g4, s3.p.g.push2 (c + B.N) (bit β) = some g4 := by
    intro β
    refine ⟨_, push2_ok _ _ ?_⟩
    have : s3.p.g.stackCap = s1.p.g.stackCap := by rw [of.g]
    rw [hst3, List.length_cons, List.length_cons, words_length, this]; omega
  cases ch with
  | none =>
    obtain ⟨g4, hg4⟩ := hpush false
    have hg4 : s3.p.g.push2 (c + B.N) 0 = some g4 := hg4
    simp only [hg4, Option.bind_some, pure] at he
    subst he
    have hs4 : Stuck Pl (s3.setG g4) v := by
      rw [push2_some hg4]
      have := h3.stack
      exact ⟨.inr ⟨_, c, _, hc1, rfl⟩, G, fw, PR, (this _).st, (this _).rings, (this _).dn⟩
    refine ⟨_, .blocked, rfl, .inl ⟨rfl, hs4, fun hE => ?_⟩⟩
    obtain ⟨n1, n2⟩ := choose_none hch
    have m1 := pertinent_none h3.st hXr n1
    have m2 := pertinent_none h3.st hYr n2
    obtain ⟨f, f1, f2⟩ := h.dn.wit W c hc
    refine blocked_bad h.orig h.evo h.st.good h.live h3.dn h.st.sub hE hlc ?_ (by rw [hcW]; exact hvW) f1 f2 ?_
    · refine AncEq.trans (hp.anc' h.st.good) (.up hc0 ?_)
      rw [hcW]; exact .refl _
    · have hXY : ∀ β, pe s3 (s1.ext (c + B.N) β) = 0 ∧ PR (s1.ext (c + B.N) β) = [] := by
        intro β
        cases β
        · rw [hX]; exact m1
        · rw [hY]; exact m2
      rintro a (ha | ha)
      · cases hq : G.X c with
        | nil => rw [hq] at ha; simp at ha
        | cons x T =>
          rw [hq] at ha hring
          simp only [List.head?_cons, Option.some.injEq] at ha
          subst ha
          have := hring.first.1
          rw [← this]; exact hXY _
      · rcases List.eq_nil_or_concat (G.X c) with hh | ⟨T', z, hz⟩
        · rw [hh] at ha; simp at ha
        · rw [List.concat_eq_append] at hz
          rw [hz] at hring ha
          have := hring.last.2
          rw [List.getLast?_append] at ha
          simp at ha
          subst ha
          rw [← this]; exact hXY _
  | some β =>
    cases β
    · obtain ⟨g4, hg4⟩ := hpush false
      simp only [hg4, Option.bind_some, pure] at he
      subst he
      obtain ⟨G', k1, k2⟩ := key false g4 hg4 hch
      refine ⟨_, _, rfl, .inr ⟨_, _, G', rfl, k1, ?_⟩⟩
      have e : (if a = c + B.N then true else false) = decide (a = c + B.N) := by split <;> simp [*]
      rw [e]; exact k2
    · obtain ⟨g4, hg4⟩ := hpush true
      simp only [hg4, Option.bind_some, pure] at he
      subst he
      obtain ⟨G', k1, k2⟩ := key true g4 hg4 hch
      refine ⟨_, _, rfl, .inr ⟨_, _, G', rfl, k1, ?_⟩⟩
      have e : (if a' = c + B.N then false else true) = !decide (a' = c + B.N) := by split <;> simp [*]
      rw [e]; exact k2

end Verif.Embed
