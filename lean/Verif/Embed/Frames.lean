import Verif.Embed.Origin

/-
The components entered on the way down and what is met when the walk down can not go on.
-/
namespace Verif.Embed
open Verif Verif.Graph Verif.EGraph Equiv Equiv.Perm Verif.Map Function
open Verif.Props (AncEq Anc)

variable {B : Base} {Pl : Plan B} {G : Gh B.D} {s : EGraph} {fw PR : Nat → List Nat} {v c0 : Nat} {p : Past B}

/-- The record of what is left to embed for `v`. -/
structure Dn (Pl : Plan B) (s : EGraph) (G : Gh B.D) (fw PR : Nat → List Nat) (v : Nat) : Prop where
  pe : ∀ x, 1 ≤ x → x ≤ B.N → pe s x ≠ 0 → pe s x ∈ fw v ∧ Pl.nb (pe s x) = x
  all : ∀ f ∈ fw v, Embed.pe s (Pl.nb f) = f
  reg : ∀ z, ∀ c ∈ PR z, G.Live B.N c ∧ B.par c = z ∧ v < z
  wit : ∀ z, ∀ c ∈ PR z, ∃ f ∈ fw v, AncEq B.par c (Pl.nb f)
  known : ∀ f ∈ fw v, ∀ c, G.Live B.N c → AncEq B.par c (Pl.nb f) → v < B.par c → c ∈ PR (B.par c)

theorem Dn.congr (h : Dn Pl s G fw PR v) {s' : EGraph} {G' : Gh B.D} {PR' : Nat → List Nat} (hpe : ∀ x, Embed.pe s' x = Embed.pe s x)
    (hl : ∀ k, G'.Live B.N k → G.Live B.N k) (hP : ∀ z c, c ∈ PR' z ↔ c ∈ PR z ∧ G'.Live B.N c) : Dn Pl s' G' fw PR' v := by
  refine ⟨?_, ?_, ?_, ?_, ?_⟩
  · intro x h1 h2; rw [hpe]; exact h.pe x h1 h2
  · intro f hf; rw [hpe]; exact h.all f hf
  · intro z c hc
    obtain ⟨a, b⟩ := (hP z c).1 hc
    exact ⟨b, (h.reg z c a).2⟩
  · intro z c hc; exact h.wit z c ((hP z c).1 hc).1
  · intro f hf c hc hac hv
    exact (hP _ _).2 ⟨h.known f hf c (hl c hc) hac hv, hc⟩

theorem Dn.same (h : Dn Pl s G fw PR v) {s' : EGraph} (hpe : ∀ x, Embed.pe s' x = Embed.pe s x) : Dn Pl s' G fw PR v :=
  h.congr hpe (fun _ hk => hk) fun z c => ⟨fun hc => ⟨hc, (h.reg z c hc).1⟩, And.left⟩

theorem Dn.reflect (h : Dn Pl s G fw PR v) (c : Nat) : Dn Pl s (G.reflect c) fw PR v :=
  h.congr (fun _ => rfl) (fun _ hk => reflect_live.1 hk) fun z k =>
    ⟨fun hc => ⟨hc, reflect_live.2 (h.reg z k hc).1⟩, And.left⟩

theorem Dn.pert (h : Dn Pl s G fw PR v) (hA : ∀ f ∈ fw v, B.A f) {w : Nat} (hw : v < w) (hn : Need Pl G fw v w) : Embed.pe s w ≠ 0 ∨ PR w ≠ [] := by
  obtain ⟨f, h1, rfl | ⟨k, k1, k2, k3⟩⟩ := hn
  · left
    rw [h.all f h1]
    have := B.rng f (hA f h1)
    omega
  · right
    intro h0
    have := h.known f h1 k k1 k3 (by rw [k2]; exact hw)
    rw [k2, h0] at this
    simp at this

/-- A component entered by the first vertex of `l`. -/
structure Entered (Pl : Plan B) (p : Past B) (v c0 c : Nat) (l : List Nat) : Prop where
  live : p.G0.Live B.N c
  ne : c ≠ c0
  below : AncEq B.par c0 c
  big : v < B.par c
  ring : l = p.G0.X c ∨ l = (p.G0.X c).reverse
  nodup : l.Nodup
  wit : ∃ f ∈ p.fS v, f ∈ Pl.fw0 v ∧ AncEq B.par c (Pl.nb f)
  first : ∀ a, l.head? = some a → ToV Pl v (Hang p.G0 a)
  pref : Ends0 Pl p v → ∀ a z, l.head? = some a → l.getLast? = some z → ToU Pl v (Hang p.G0 a) →
    ToU Pl v (Hang p.G0 z) ∨ ∀ y ∈ l, Need Pl p.G0 p.fw v y → y = a

/-- The vertices ahead of the walk: what is left of the components entered, the last one first, then what is left of the
vertices around the component of `c0`. -/
def Fr (Pl : Plan B) (p : Past B) (v c0 : Nat) (s : EGraph) (PR : Nat → List Nat) : List (Nat × List Nat × List Nat) → List Nat → Prop
  | [], V => ∃ A, p.base = A ++ V
  | (c, d, l) :: K, V => ∃ V', V = l ++ V' ∧ l ≠ [] ∧ Fr Pl p v c0 s PR K V' ∧ V'.head? = some (B.par c) ∧
      Entered Pl p v c0 c (d ++ l) ∧ (∀ q ∈ V', ¬ AncEq B.par c q) ∧ pe s (B.par c) = 0 ∧
      (Pl.low c < v → ∀ k ∈ PR (B.par c), Pl.low k < v)

theorem Fr.mono {s' : EGraph} {PR' : Nat → List Nat} (hpe : ∀ x, pe s x = 0 → pe s' x = 0) (hPR : ∀ z, ∀ k ∈ PR' z, k ∈ PR z) :
    ∀ {K V}, Fr Pl p v c0 s PR K V → Fr Pl p v c0 s' PR' K V
  | [], _, h => h
  | (c, d, l) :: K, V, h => by
    obtain ⟨V', h1, h2, h3, h4, h5, h6, h7, h8⟩ := h
    exact ⟨V', h1, h2, h3.mono hpe hPR, h4, h5, h6, hpe _ h7, fun hl k hk => h8 hl k (hPR _ k hk)⟩

theorem Fr.drop {W : Nat} {Q : List Nat} : ∀ {K}, Fr Pl p v c0 s PR K (W :: Q) → ∃ K', Fr Pl p v c0 s PR K' Q
  | [], h => by
    obtain ⟨A, h⟩ := h
    exact ⟨[], A ++ [W], by rw [h]; simp⟩
  | (c, d, l) :: K, h => by
    obtain ⟨V', h1, h2, h3, h4, h5, h6, h7, h8⟩ := h
    cases l with
    | nil => exact absurd rfl h2
    | cons a l =>
      simp only [List.cons_append, List.cons.injEq] at h1
      obtain ⟨rfl, h1⟩ := h1
      by_cases hl : l = []
      · subst hl
        refine ⟨K, ?_⟩
        rw [h1]; exact h3
      · refine ⟨(c, d ++ [W], l) :: K, V', h1, hl, h3, h4, ?_, h6, h7, h8⟩
        simpa using h5

theorem Fr.last {V : List Nat} (hV : V ≠ []) : ∀ {K}, Fr Pl p v c0 s PR K V → V.getLast? = p.base.getLast?
  | [], h => by
    obtain ⟨A, h⟩ := h
    rw [h, List.getLast?_append]
    cases V with
    | nil => exact absurd rfl hV
    | cons a V => simp [List.getLast?_cons]
  | (c, d, l) :: K, h => by
    obtain ⟨V', h1, h2, h3, h4, h5, h6, h7, h8⟩ := h
    have hne : V' ≠ [] := by rintro rfl; simp at h4
    rw [h1, List.getLast?_append, ← h3.last hne]
    cases V' with
    | nil => exact absurd rfl hne
    | cons a V => simp [List.getLast?_cons]

/-- The vertex `h` is `q`, or was reached through a component entered at `q`; `R` is ahead. -/
def Link (Pl : Plan B) (p : Past B) (v c0 : Nat) (s : EGraph) (PR : Nat → List Nat) (R : List Nat) (q h : Nat) : Prop :=
  h = q ∨ ∃ E l, Entered Pl p v c0 E l ∧ B.par E = q ∧ AncEq B.par E h ∧ (∀ z ∈ R, ¬ AncEq B.par E z) ∧ pe s q = 0 ∧
    (Pl.low E < v → ∀ k ∈ PR q, Pl.low k < v)

theorem Entered.sub (o : Orig Pl p v c0) {c x : Nat} {l : List Nat} (h : Entered Pl p v c0 c l) (hx : x ∈ l) :
    (1 ≤ x ∧ x ≤ B.N) ∧ p.G0.cp x = c ∧ AncEq B.par c x := by
  have hx' : x ∈ p.G0.X c := by rcases h.ring with hh | hh <;> rw [hh] at hx <;> simpa using hx
  obtain ⟨h1, h2, h3⟩ := o.good.bd c h.live x hx'
  refine ⟨⟨h1, h2⟩, h3, ?_⟩
  have := o.good.anc B.par_lt x h1 h2
  rwa [h3] at this

/-- Where a vertex ahead is. -/
theorem Fr.pos (o : Orig Pl p v c0) {w : Nat} : ∀ {K h T}, Fr Pl p v c0 s PR K (h :: T) → w ∈ h :: T →
    (∃ A L q R, p.base = A ++ q :: R ∧ h :: T = L ++ q :: R ∧ w ∈ q :: R ∧ Link Pl p v c0 s PR (q :: R) q h) ∨
    ∃ c d a q l V', Entered Pl p v c0 c (d ++ q :: l) ∧ h :: T = a ++ (q :: l) ++ V' ∧ w ∈ q :: l ∧ V' ≠ [] ∧
      Link Pl p v c0 s PR (q :: l ++ V') q h ∧ ∀ z ∈ V', ¬ AncEq B.par c z
  | [], h, T, hF, hw => by
    obtain ⟨A, hA⟩ := hF
    exact .inl ⟨A, [], h, T, hA, rfl, hw, .inl rfl⟩
  | (c, d, l) :: K, h, T, hF, hw => by
    obtain ⟨V', h1, h2, h3, h4, h5, h6, h7, h8⟩ := hF
    cases l with
    | nil => exact absurd rfl h2
    | cons a l =>
      simp only [List.cons_append, List.cons.injEq] at h1
      obtain ⟨rfl, rfl⟩ := h1
      have hne : V' ≠ [] := by rintro rfl; simp at h4
      by_cases hwl : w ∈ h :: l
      · exact .inr ⟨c, d, [], h, l, V', h5, by simp, hwl, hne, .inl rfl, h6⟩
      · have hw' : w ∈ V' := by
          rw [← List.cons_append, List.mem_append] at hw
          exact hw.resolve_left hwl
        cases V' with
        | nil => exact absurd rfl hne
        | cons h' T' =>
          simp only [List.head?_cons, Option.some.injEq] at h4
          have hch := (h5.sub o (x := h) (by simp)).2.2
          have hlink : ∀ {R q}, Link Pl p v c0 s PR R q h' → (∀ z ∈ R, z ∈ h' :: T') → Link Pl p v c0 s PR R q h := by
            intro R q hl hR
            rcases hl with rfl | ⟨E, l', e1, e2, e3, e4⟩
            · right
              refine ⟨c, _, h5, h4.symm, hch, fun z hz => h6 z (hR z hz), ?_, ?_⟩
              · rw [h4]; exact h7
              · rw [h4]; exact h8
            · right
              refine ⟨E, l', e1, e2, ?_, e4⟩
              refine (e3.trans ?_).trans hch
              refine .up ?_ ?_
              · have := h5.big; omega
              · rw [← h4]; exact .refl _
          rcases h3.pos o hw' with ⟨A, L, q, R, q1, q2, q3, q4⟩ | ⟨c', d', a', q, l', V'', q1, q2, q3, q4, q5, q6⟩
          · refine .inl ⟨A, h :: l ++ L, q, R, q1, ?_, q3, hlink q4 ?_⟩
            · rw [q2]; simp
            · intro z hz; rw [q2]; exact List.mem_append_right _ hz
          · refine .inr ⟨c', d', h :: l ++ a', q, l', V'', q1, ?_, q3, q4, hlink q5 ?_, q6⟩
            · rw [q2]; simp
            · intro z hz
              rw [q2, List.append_assoc]
              exact List.mem_append_right _ hz

/-- A component is found neither of whose ends leads on. -/
theorem blocked_bad (o : Orig Pl p v c0) (e : Evo Pl c0 v p.G0 p.fw p.PR G fw PR) (hg : Good B.N B.par B.α G) (h0 : G.Live B.N c0)
    (dn : Dn Pl s G fw PR v) (hsub : ∀ u, (fw u).Sublist (Pl.fw0 u)) (hends : Ends0 Pl p v) {c : Nat} (hc : G.Live B.N c) (hb : AncEq B.par c0 c)
    (hv : v < B.par c) {f : Nat} (hf : f ∈ fw v) (hfc : AncEq B.par c (Pl.nb f))
    (hx : ∀ a, (G.X c).head? = some a ∨ (G.X c).getLast? = some a → pe s a = 0 ∧ PR a = []) : B.Bad := by
  have hne : c ≠ c0 := by rintro rfl; rw [o.par] at hv; omega
  have hc' := e.live c hc
  have hf0 : ∀ f ∈ fw v, f ∈ Pl.fw0 v := fun f hf => (hsub v).subset hf
  have hr : ∀ f ∈ p.fw v, 1 ≤ Pl.nb f ∧ Pl.nb f ≤ B.N := fun f hf => (Pl.fw_range v f ((o.sub v).subset hf)).2.2
  obtain ⟨w, hw, hn, hvw⟩ := find_need o.good o.act hc' hv.le (e.fwv f hf) (hr f (e.fwv f hf)) hfc
  have hbig : ∀ z ∈ p.G0.X c, p.G0.cp z = c ∧ v < z := by
    intro z hz
    obtain ⟨z1, z2, z3⟩ := o.good.bd c hc' z hz
    refine ⟨z3, ?_⟩
    have q1 := o.good.anc B.par_lt z z1 z2
    rw [z3] at q1
    have := B.anc_le q1 z1 z2
    have := B.par_lt c hc.1 (hg.root c hc).1
    omega
  have hneed : ∀ z ∈ p.G0.X c, Need Pl p.G0 p.fw v z → Need Pl G fw v z := fun z hz hh =>
    (e.need hg h0 o.par hr hc hne (hbig z hz).1 (hbig z hz).2).2 hh
  have hA : ∀ f ∈ fw v, B.A f := fun f hf => Pl.fw_arc v f (hf0 f hf)
  have hem : ∀ a, ((p.G0.X c).head? = some a ∨ (p.G0.X c).getLast? = some a) → ((G.X c).head? = some a ∨ (G.X c).getLast? = some a) := by
    intro a ha
    rcases e.X c hc hne with hX | hX
    · rw [hX]; exact ha
    · rw [hX, List.head?_reverse, List.getLast?_reverse]; exact ha.symm
  have hend : ∀ a, ((p.G0.X c).head? = some a ∨ (p.G0.X c).getLast? = some a) → a ∈ p.G0.X c ∧ ¬ Need Pl p.G0 p.fw v a := by
    intro a ha
    have hm : a ∈ p.G0.X c := ha.elim List.mem_of_head? List.mem_of_getLast?
    refine ⟨hm, fun hh => ?_⟩
    obtain ⟨a1, a2⟩ := hx a (hem a ha)
    exact (dn.pert hA (hbig a hm).2 (hneed a hm hh)).elim (fun k => k a1) fun k => k a2
  obtain ⟨F, hS, hsF⟩ := o.site (l := p.G0.X c) hc' hne hb (.inl rfl)
  have hXne : p.G0.X c ≠ [] := List.ne_nil_of_mem hw
  obtain ⟨a, ha⟩ : ∃ a, (p.G0.X c).head? = some a := by
    cases hh : p.G0.X c with
    | nil => exact absurd hh hXne
    | cons a l => exact ⟨a, rfl⟩
  obtain ⟨z, hz⟩ : ∃ a, (p.G0.X c).getLast? = some a := ⟨_, List.getLast?_eq_some_getLast hXne⟩
  have hwa : w ≠ a := fun hh => (hend a (.inl ha)).2 (hh ▸ hn)
  have hwz : w ≠ z := fun hh => (hend z (.inr hz)).2 (hh ▸ hn)
  cases hap : B.ap
  case true =>
    have hU : ∀ b, ((p.G0.X c).head? = some b ∨ (p.G0.X c).getLast? = some b) → ToU Pl v (Hang p.G0 b) := by
      intro b hb
      have hbr : 1 ≤ b ∧ b ≤ B.N := by
        have := o.good.bd c hc' b (hend b hb).1
        exact ⟨this.1, this.2.1⟩
      exact .inr ⟨hap, b, hbr, hang_self hbr⟩
    exact hS.one ((ends_sub ha hz hw hwa hwz).trans hsF) (hU a (.inl ha)) (hn.toV o.sub) (hU z (.inr hz))
  rcases hends hap c hc' hv with h1 | ⟨b, h1, h2⟩
  · have hU : ∀ b, ((p.G0.X c).head? = some b ∨ (p.G0.X c).getLast? = some b) → ToU Pl v (Hang p.G0 b) := by
      intro b hb
      obtain ⟨u, hu, hn'⟩ := h1 b hb
      refine Act.toU o.sub ⟨u, ?_, hn'⟩
      have : u ≠ v := by rintro rfl; exact (hend b hb).2 hn'
      omega
    exact hS.one ((ends_sub ha hz hw hwa hwz).trans hsF) (hU a (.inl ha)) (hn.toV o.sub) (hU z (.inr hz))
  · have := h2 w hw ⟨v, by omega, hn⟩
    subst this
    exact absurd hn (hend w h1).2

end Verif.Embed
