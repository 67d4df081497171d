import Verif.Embed.IsoPath

/-
The graph while an obstruction is isolated: adjacency lists of vertices and root copies, and lists of arcs not yet embedded.
-/
namespace Verif.Isolate
open Verif Verif.Embed Verif.Graph Verif.EGraph Verif.Random Verif.Test Function

/-- What the isolation does not change as long as no edge is deleted. -/
structure Fix0 (g g' : Graph) : Prop where
  N : g'.N = g.N
  M : g'.M = g.M
  arcCap : g'.arcCap = g.arcCap
  holes : g'.holes = g.holes
  holesCap : g'.holesCap = g.holesCap
  stackCap : g'.stackCap = g.stackCap
  flags : g'.flags = g.flags
  index : ∀ v, v ≤ g.N → (g'.V v).index = (g.V v).index

theorem Fix0.trans {a b c : Graph} (h : Fix0 a b) (h' : Fix0 b c) : Fix0 a c :=
  ⟨h'.N.trans h.N, h'.M.trans h.M, h'.arcCap.trans h.arcCap, h'.holes.trans h.holes, h'.holesCap.trans h.holesCap,
    h'.stackCap.trans h.stackCap, h'.flags.trans h.flags, fun v hv => (h'.index v (by rw [h.N]; exact hv)).trans (h.index v hv)⟩
theorem Fix0.of_fix {g g' : Graph} (h : Fix g g') : Fix0 g g' :=
  ⟨h.N, h.M, h.arcCap, h.holes, h.holesCap, h.stackCap, h.flags, h.index⟩
theorem Fix0.of_strip {g g' : Graph} (h : strip g' = strip g) : Fix0 g g' :=
  ⟨strip_N h, strip_M h, strip_arcCap h, strip_holes h, strip_holesCap h, strip_stackCap h, strip_flags h, fun v _ => strip_index h v⟩
theorem Fix0.of_same {g g' : Graph} (h : SameBut g g') : Fix0 g g' :=
  ⟨h.N, h.M, h.arcCap, h.holes, h.holesCap, h.stackCap, h.flags, fun v _ => h.index v⟩
theorem Fix0.eSize {g g' : Graph} (h : Fix0 g g') : g'.eSize = g.eSize := by unfold Graph.eSize; rw [h.arcCap]
theorem Fix0.vSize {g g' : Graph} (h : Fix0 g g') : g'.vSize = g.vSize := by unfold Graph.vSize; rw [h.N]

/-- A vertex with a child. -/
def Stem (B : Base) (u : Nat) : Prop := ∃ c, B.Child c ∧ B.par c = u

theorem Stem.range {B : Base} {u : Nat} (h : Stem B u) : 1 ≤ u ∧ u ≤ B.N := by
  obtain ⟨c, h1, rfl⟩ := h
  have := B.par_lt c h1.1 h1.2.1
  have := h1.2.2
  have := h1.2.1
  omega

/-- The adjacency lists `L` and the lists `fw` of arcs to descendants that wait to be embedded. -/
structure Part (B : Base) (s : EGraph) (L fw : Nat → List Nat) : Prop where
  fix : Fix0 B.g0 s.p.g
  lk : Lk B.A s.p.g L
  home : ∀ x e, e ∈ L x → B.own e = B.home x
  root : ∀ c, 1 ≤ c → L (c + B.N) ≠ [] → B.Child c
  fwl : Lists (arcs s.p.g) (fwh s.p) B.N fw
  arc : ∀ u, ∀ f ∈ fw u, B.A f
  own : ∀ u, ∀ f ∈ fw u, B.own f = u
  nbr : ∀ u, ∀ f ∈ fw u, (s.p.g.E f).nbr = B.own (twin f)
  up : ∀ u, ∀ f ∈ fw u, Stem B u
  down : ∀ u, ∀ f ∈ fw u, B.Child (B.own (twin f))
  off : ∀ u, ∀ f ∈ fw u, ∀ x, f ∉ L x ∧ twin f ∉ L x
  once : ∀ u w f, f ∈ fw u → twin f ∉ fw w
  cover : ∀ e, B.A e → (∃ x, e ∈ L x) ∨ ∃ u, e ∈ fw u ∨ twin e ∈ fw u
  parent : ∀ x, 1 ≤ x → x ≤ B.N → (s.p.VI x).parent = B.par x
  full : ∀ c, B.Child c → L c ≠ [] ∧ (L (c + B.N) ≠ [] ∨ L (B.par c) ≠ [])

/-- What is known of the vertex records before the components are joined. -/
structure Info (B : Base) (s : EGraph) (v : Nat) : Prop where
  la : ∀ x, 1 ≤ x → x ≤ B.N → (s.p.VI x).leastAncestor = x ∨ Stem B (s.p.VI x).leastAncestor
  low : ∀ x, 1 ≤ x → x ≤ B.N → 1 ≤ (s.p.VI x).lowpoint
  pe : ∀ x, 1 ≤ x → x ≤ B.N → (s.p.VI x).pertinentEdge ≠ 0 → Stem B v

/-- No edge is its own parallel or a loop. -/
def NoLoop (B : Base) : Prop := ∀ e, B.A e → B.own e ≠ B.own (twin e)

/-- Marks, types, the stack and the next future pertinent children may have changed. -/
structure Mv (A : Nat → Prop) (s s' : EGraph) : Prop where
  fr : Fr A s.p.g s'.p.g
  vi : ∀ x, ∃ c, s'.p.VI x = { s.p.VI x with futurePertinentChild := c }

variable {A : Nat → Prop} {B : Base} {s s' s'' : EGraph} {L fw : Nat → List Nat} {v : Nat}

theorem Mv.refl (A : Nat → Prop) (s : EGraph) : Mv A s s := ⟨.refl _ _, fun _ => ⟨_, rfl⟩⟩
theorem Mv.trans (h : Mv A s s') (h' : Mv A s' s'') : Mv A s s'' :=
  ⟨h.fr.trans h'.fr, fun x => by
    obtain ⟨c, hc⟩ := h.vi x
    obtain ⟨d, hd⟩ := h'.vi x
    exact ⟨d, by rw [hd, hc]⟩⟩
theorem Mv.of_rest (h : Fr A s.p.g s'.p.g) (h' : Rest s s') : Mv A s s' := ⟨h, fun x => ⟨_, by rw [h'.vi]⟩⟩
theorem Mv.setG (s : EGraph) {g : Graph} (h : Fr A s.p.g g) : Mv A s (s.setG g) := ⟨h, fun _ => ⟨_, rfl⟩⟩
theorem Mv.setIC (s : EGraph) (ic : IC) : Mv A s (s.setIC ic) := ⟨.refl _ _, fun _ => ⟨_, rfl⟩⟩

theorem Part.N (P : Part B s L fw) : s.p.g.N = B.N := by rw [P.fix.N, B.hN]
theorem Part.vSize (P : Part B s L fw) : s.p.g.vSize = 1 + B.N + B.N := by unfold Graph.vSize; rw [P.N]
theorem Part.eSize (P : Part B s L fw) : s.p.g.eSize = B.g0.eSize := P.fix.eSize

theorem Part.mv (P : Part B s L fw) (h : Mv B.A s s') : Part B s' L fw := by
  have hs := h.fr.strip
  refine ⟨P.fix.trans (.of_strip hs), P.lk.fr h.fr, P.home, P.root, P.fwl.congr (strip_eSize hs) ?_ ?_, P.arc, P.own, ?_, P.up, P.down, P.off, P.once,
    P.cover, ?_, P.full⟩
  · intro z _ _
    obtain ⟨c, hc⟩ := h.vi z
    unfold fwh; rw [hc]
  · intro z y _
    exact ⟨strip_elink hs y false, strip_elink hs y true⟩
  · intro u f hf; rw [strip_nbr hs]; exact P.nbr u f hf
  · intro x h1 h2
    obtain ⟨c, hc⟩ := h.vi x
    rw [hc]; exact P.parent x h1 h2

theorem Info.mv (P : Info B s v) (h : Mv A s s') : Info B s' v := by
  refine ⟨?_, ?_, ?_⟩ <;> intro x h1 h2 <;> obtain ⟨c, hc⟩ := h.vi x <;> rw [hc]
  · exact P.la x h1 h2
  · exact P.low x h1 h2
  · exact P.pe x h1 h2

theorem Plan.low_pos (Pl : Plan B) : ∀ (n x : Nat), B.N - x = n → 1 ≤ x → x ≤ B.N → 1 ≤ Pl.la x ∧ 1 ≤ Pl.low x := by
  intro n
  induction n using Nat.strong_induction_on with
  | _ n ih =>
    intro x hn h1 h2
    have hla : 1 ≤ Pl.la x := by
      rcases Pl.la_hit x h1 h2 with h | ⟨f, hf, _⟩
      · omega
      · exact (Pl.fw_range _ f hf).1
    refine ⟨hla, ?_⟩
    rcases Pl.low_hit x h1 h2 with h | ⟨c, hc, hp, h⟩
    · omega
    · have := B.par_lt c hc.1 hc.2.1
      have := hc.2.1
      rw [h]
      exact (ih (B.N - c) (by omega) c rfl hc.1 hc.2.1).2

theorem stem_of_anc {a b : Nat} (h : Verif.Props.Anc B.par a b) (h1 : 1 ≤ b) (h2 : b ≤ B.N) : Stem B a := by
  obtain ⟨h3, h4⟩ := h
  generalize hp : B.par b = p at h3 h4
  induction h4 generalizing b with
  | refl => exact ⟨b, ⟨h1, h2, by rw [hp]; exact h3⟩, hp⟩
  | @up p h5 h6 ih =>
    have := B.par_lt b h1 h2
    exact ih (b := p) (by omega) (by omega) rfl h5

theorem Plan.stem (Pl : Plan B) {u f : Nat} (hf : f ∈ Pl.fw0 u) : Stem B u ∧ B.Child (B.own (twin f)) := by
  have h1 := Pl.fw_range u f hf
  have h2 := Pl.fw_anc u f hf
  rw [(Pl.fw_own u f hf).2]
  exact ⟨stem_of_anc h2 h1.2.2.1 h1.2.2.2, h1.2.2.1, h1.2.2.2, h2.1⟩

/-- The state while an embedding is made, as lists. -/
theorem Part.start {Pl : Plan B} {G : Gh B.D} {PR : Nat → List Nat} (hB : NoLoop B) (hn : ¬ B.A 0) (st : St Pl s G fw PR v) (dn : Dn Pl s G fw PR v) :
    Part B s (raw G) fw ∧ Info B s v := by
  have r := st.rep
  have hdom : ∀ x, raw G x ≠ [] → 1 ≤ x ∧ x ≤ B.N + B.N := fun x hx => st.good.dom x fun hh => hx (raw_nil.2 hh)
  refine ⟨⟨.of_fix r.fix, ⟨r.links, r.owner, ?_, fun x e he => (mem_raw.1 he).1, ?_, r.zero, hn⟩, r.home, ?_, st.fwl, st.wait.arc, ?_, ?_, ?_, ?_, st.wait.off,
    st.wait.pair, ?_, r.parent, ?_⟩, ⟨?_, ?_, ?_⟩⟩
  · intro x e he
    obtain ⟨hA, hm⟩ := mem_raw.1 he
    obtain ⟨y, hy, _⟩ := st.good.pair x _ hm
    exact ⟨y, mem_raw'.2 hy⟩
  · intro x e he he'
    exact hB e (mem_raw.1 he).1 ((r.home x e he).trans (r.home x _ he').symm)
  · intro c h1 hc
    have := st.good.root c ⟨h1, fun hh => hc (raw_nil.2 hh)⟩
    exact ⟨h1, this.1, this.2.1⟩
  · intro u f hf; exact (Pl.fw_own u f ((st.sub u).subset hf)).1
  · intro u f hf; rw [st.nbr u f hf, (Pl.fw_own u f ((st.sub u).subset hf)).2]
  · intro u f hf; exact (Plan.stem Pl ((st.sub u).subset hf)).1
  · intro u f hf; exact (Plan.stem Pl ((st.sub u).subset hf)).2
  · intro e he
    rcases st.cover ⟨e, he⟩ with ⟨x, hx⟩ | h
    · exact .inl ⟨x, mem_raw'.2 hx⟩
    · exact .inr h
  · intro c hc
    refine ⟨List.ne_nil_of_mem (r.foot c hc), ?_⟩
    have := List.ne_nil_of_mem (r.hold c hc)
    unfold holder at this
    split at this
    · exact .inr this
    · exact .inl this
  · intro x h1 h2
    rw [st.la x h1 h2]
    rcases Pl.la_hit x h1 h2 with h | ⟨f, hf, _⟩
    · exact .inl h
    · exact .inr (Plan.stem Pl hf).1
  · intro x h1 h2
    rw [st.low x h1 h2]
    exact (Plan.low_pos Pl _ x rfl h1 h2).2
  · intro x h1 h2 hx
    exact (Plan.stem Pl ((st.sub v).subset (dn.pe x h1 h2 hx).1)).1

/-- The state handed to the isolation. -/
theorem Given.part {Pl : Plan B} (hB : NoLoop B) (hn : ¬ B.A 0) (h : Given Pl s v) : ∃ L fw, Part B s L fw ∧ Info B s v := by
  obtain ⟨⟨-, G, fw, PR, st, -, dn⟩, -⟩ := h
  exact ⟨raw G, fw, Part.start hB hn st dn⟩

end Verif.Isolate
