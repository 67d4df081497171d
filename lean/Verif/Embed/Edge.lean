import Verif.Embed.Merge

/-
_EmbedBackEdgeToDescendant follows the ideal step.
-/
namespace Verif.Embed
open Verif Verif.Graph Verif.EGraph Equiv Equiv.Perm Verif.Map Function
open Verif.Props (AncEq)

/-- The links of arcs as a collection, for the circular forward arc lists. -/
def arcs (g : Graph) : LC.Coll := ⟨g.eSize, fun e => (g.E e).link true, fun e => (g.E e).link false⟩

/-- Heads of the forward arc lists. -/
def fwh (p : PGraph) (u : Nat) : Nat := (p.VI u).fwdArcList

theorem ring_ne {c : LC.Coll} {y : Nat} {T : List Nat} (h : LC.Ring c (y :: T)) (hT : T ≠ []) (hnd : (y :: T).Nodup) :
    c.next y ≠ y ∧ c.prev y ≠ y := by
  constructor
  · obtain ⟨b, S, rfl⟩ := List.exists_cons_of_ne_nil hT
    rw [LC.ring_iff, List.cons_append, List.isChain_cons_cons] at h
    rw [h.1.1]
    rintro rfl; simp at hnd
  · rcases List.eq_nil_or_concat T with rfl | ⟨S, b, rfl⟩
    · exact absurd rfl hT
    · rw [List.concat_eq_append] at h hnd
      have := (LC.ring_last (T := y :: S) (p := b) h y (by simp)).1
      rw [this]
      rintro rfl; simp at hnd

theorem takeFwd_spec {p : PGraph} {n v f : Nat} {fw : Nat → List Nat} (hN : p.g.N = n) (hfw : Lists (arcs p.g) (fwh p) n fw)
    (hv : 1 ≤ v ∧ v ≤ n) (hf : f ∈ fw v) :
    ∃ g' VI', takeFwd p v f = some ⟨g', VI'⟩ ∧ Lists (arcs g') (fwh ⟨g', VI'⟩) n (update fw v ((fw v).erase f)) ∧
      SameBut p.g g' ∧ (∀ e, e ∉ fw v → g'.E e = p.g.E e) ∧ g'.V = p.g.V ∧
      (∀ x, VI' x = { p.VI x with fwdArcList := (VI' x).fwdArcList }) := by
  obtain ⟨A, C, hAC⟩ := List.append_of_mem hf
  have hnd := hfw.nodup v
  have hbd := hfw.bound v
  have hring := hfw.ring v
  have her : (fw v).erase f = A ++ C := by
    rw [hAC] at hnd ⊢
    have hcA : f ∉ A := fun hh => by
      rw [List.nodup_append] at hnd
      exact hnd.2.2 f hh f (by simp) rfl
    rw [List.erase_append_right _ hcA]; simp
  have hr : LC.Ring (arcs p.g) (f :: (C ++ A)) := by
    rw [hAC, LC.ring_rotate] at hring; exact hring
  have hnd' : (f :: (C ++ A)).Nodup := by
    rw [hAC] at hnd
    have hp : List.Perm (A ++ f :: C) ((f :: C) ++ A) := List.perm_append_comm
    exact hp.nodup_iff.1 hnd
  have hfs : f < p.g.eSize := (hbd f hf).2
  have hvv : v < 1 + p.g.N := by omega
  have hrd : p.rdVI v = some (p.VI v) := if_pos hvv
  set n0 := (p.g.E f).link false with hn0
  set q0 := (p.g.E f).link true with hq0
  -- neighbours are in the list
  have hmemq : q0 ∈ fw v ∧ n0 ∈ fw v := by
    have hn : (arcs p.g).next f = n0 := rfl
    have hp : (arcs p.g).prev f = q0 := rfl
    constructor
    · rcases List.eq_nil_or_concat (C ++ A) with h0 | ⟨S, b, h0⟩
      · rw [h0, LC.ring_iff] at hr
        simp [LC.R] at hr
        rw [← hp, hr.2]; exact hf
      · rw [List.concat_eq_append] at h0
        rw [h0] at hr
        have := (LC.ring_last (T := f :: S) (p := b) hr f (by simp)).1
        rw [← hp, this, hAC]
        have : b ∈ C ++ A := by rw [h0]; simp
        simp at this ⊢; tauto
    · cases h0 : C ++ A with
      | nil =>
        rw [h0, LC.ring_iff] at hr
        simp [LC.R] at hr
        rw [← hn, hr.1]; exact hf
      | cons b S =>
        rw [h0, LC.ring_iff, List.cons_append, List.isChain_cons_cons] at hr
        rw [← hn, hr.1.1, hAC]
        have : b ∈ C ++ A := by rw [h0]; simp
        simp at this ⊢; tauto
  have hqs : q0 < p.g.eSize := (hbd _ hmemq.1).2
  have hns : n0 < p.g.eSize := (hbd _ hmemq.2).2
  let VI' : Nat → VInfo := if (p.VI v).fwdArcList = f then update p.VI v { p.VI v with fwdArcList := if n0 = f then 0 else n0 } else p.VI
  -- the second reading gives the same
  have hfq : f = q0 ↔ n0 = f := by
    by_cases h0 : C ++ A = []
    · rw [h0, LC.ring_iff] at hr
      simp [LC.R] at hr
      have h1 : n0 = f := hr.1
      have h2 : q0 = f := hr.2
      rw [h1, h2]
    · have h1 := ring_ne hr h0 hnd'
      have h2 : n0 ≠ f := h1.1
      have h3 : q0 ≠ f := h1.2
      constructor
      · intro hh; exact absurd hh.symm h3
      · intro hh; exact absurd hh h2
  let g1 := p.g.updE q0 (·.setLink false n0)
  have hE1 : ∀ b, (g1.E f).link b = (p.g.E f).link b := by
    intro b
    show ((p.g.updE q0 (·.setLink false n0)).E f).link b = _
    rw [updE_E]
    split
    · next hh =>
      rw [ERec.link_setLink]
      split
      · next hb => rw [hb]
      · rfl
    · rfl
  let g' := g1.updE n0 (·.setLink true q0)
  have hrun : takeFwd p v f = some ⟨g', VI'⟩ := by
    have hlast : ∀ p1 : PGraph, p1.g = p.g → p1.VI = VI' → (do
        let q ← p1.g.getAdj f true
        let n ← p1.g.getAdj f false
        let g ← p1.g.setAdj q false n
        let n ← g.getAdj f false
        let q ← g.getAdj f true
        let g ← g.setAdj n true q
        return p1.setG g) = some (⟨g', VI'⟩ : PGraph) := by
      intro p1 h1 h2
      rw [h1, getAdj_eq hfs, getAdj_eq hfs]
      simp only [Option.bind_eq_bind, Option.bind_some]
      rw [setAdj_eq hqs]
      simp only [Option.bind_some]
      have hfs1 : f < (p.g.updE q0 (·.setLink false n0)).eSize := hfs
      have hns1 : n0 < (p.g.updE q0 (·.setLink false n0)).eSize := hns
      rw [getAdj_eq hfs1, getAdj_eq hfs1]
      simp only [Option.bind_some]
      have e1 : ((p.g.updE q0 (·.setLink false n0)).E f).link false = n0 := hE1 false
      have e2 : ((p.g.updE q0 (·.setLink false n0)).E f).link true = q0 := hE1 true
      rw [e1, e2, setAdj_eq hns1]
      simp only [Option.bind_some, pure]
      unfold PGraph.setG
      rw [← h2]
    unfold takeFwd
    rw [hrd]
    simp only [Option.bind_eq_bind, Option.bind_some]
    rw [getAdj_eq hfs]
    simp only [Option.bind_some]
    by_cases hh : (p.VI v).fwdArcList = f
    · rw [if_pos hh]
      have hwr : p.wrVI v { p.VI v with fwdArcList := if n0 = f then 0 else n0 } =
        some { p with VI := update p.VI v { p.VI v with fwdArcList := if n0 = f then 0 else n0 } } := if_pos hvv
      rw [hwr]
      simp only [Option.bind_some]
      exact hlast { p with VI := update p.VI v { p.VI v with fwdArcList := if n0 = f then 0 else n0 } } rfl
        (if_pos hh).symm
    · rw [if_neg hh]
      have := hlast p rfl (by simp only [VI']; rw [if_neg hh])
      rw [getAdj_eq hfs false] at this
      simp only [Option.bind_eq_bind, Option.bind_some] at this
      exact this
  have hEg' : ∀ e, g'.E e = if e = n0 then (if e = q0 then (p.g.E e).setLink false n0 else p.g.E e).setLink true q0
      else if e = q0 then (p.g.E e).setLink false n0 else p.g.E e := by
    intro e
    show ((p.g.updE q0 (·.setLink false n0)).updE n0 (·.setLink true q0)).E e = _
    rw [updE_E, updE_E]
  have hnext : ∀ e, (arcs g').next e = if e = q0 then n0 else (arcs p.g).next e := by
    intro e
    show (g'.E e).link false = if e = q0 then n0 else (p.g.E e).link false
    rw [hEg']
    by_cases h1 : e = n0
    · rw [if_pos h1]
      by_cases h2 : e = q0
      · rw [if_pos h2, if_pos h2]; simp
      · rw [if_neg h2, if_neg h2]; simp
    · rw [if_neg h1]
      by_cases h2 : e = q0
      · rw [if_pos h2, if_pos h2]; simp
      · rw [if_neg h2, if_neg h2]
  have hprev : ∀ e, (arcs g').prev e = if e = n0 then q0 else (arcs p.g).prev e := by
    intro e
    show (g'.E e).link true = if e = n0 then q0 else (p.g.E e).link true
    rw [hEg']
    by_cases h1 : e = n0
    · rw [if_pos h1, if_pos h1]; simp
    · rw [if_neg h1, if_neg h1]
      by_cases h2 : e = q0
      · rw [if_pos h2]; simp
      · rw [if_neg h2]
  have hheads : ∀ z, fwh ⟨g', VI'⟩ z = if z = v then (if (p.VI v).fwdArcList = f then (if n0 = f then 0 else n0) else (p.VI v).fwdArcList) else fwh p z := by
    intro z
    unfold fwh
    show (VI' z).fwdArcList = _
    by_cases hh : (p.VI v).fwdArcList = f
    · simp only [VI', if_pos hh]
      by_cases hz : z = v
      · subst hz; simp
      · simp [update_of_ne hz, hz]
    · simp only [VI', if_neg hh]
      by_cases hz : z = v
      · subst hz; simp
      · simp [hz]
  have hothers : ∀ w, w ≠ v → ∀ y ∈ fw w, (arcs g').next y = (arcs p.g).next y ∧ (arcs g').prev y = (arcs p.g).prev y := by
    intro w hw y hy
    have h1 : y ≠ q0 := fun hh => hw (hfw.disj _ _ _ hy (hh ▸ hmemq.1))
    have h2 : y ≠ n0 := fun hh => hw (hfw.disj _ _ _ hy (hh ▸ hmemq.2))
    rw [hnext, hprev, if_neg h1, if_neg h2]
    exact ⟨rfl, rfl⟩
  refine ⟨g', VI', hrun, ?_, ?_, ?_, rfl, ?_⟩
  · rw [her]
    by_cases h0 : C ++ A = []
    · have hA : A = [] := by simp at h0; exact h0.2
      have hC : C = [] := by simp at h0; exact h0.1
      subst hA; subst hC
      have hn : n0 = f := by
        rw [h0, LC.ring_iff] at hr; simp [LC.R] at hr; exact hr.1
      have hh : (p.VI v).fwdArcList = f := by
        have := hfw.head v hv.1 hv.2; rw [hAC] at this; exact this
      have := hfw.replace (z := v) (c' := arcs g') (h' := 0) (L' := []) rfl rfl trivial (by simp) (by simp) (by simp) hothers
      refine this.congr rfl ?_ (fun _ _ _ => ⟨rfl, rfl⟩)
      intro z _ _
      rw [hheads, update_apply, hh]
      simp [hn]
    · obtain ⟨d, h', e1, e2, e3⟩ := hfw.delete hv.1 hv.2 hAC
      have hne := ring_ne hr h0 hnd'
      have hn : n0 ≠ f := hne.1
      have hfq' : ¬ f = q0 := fun hh => hn (hfq.1 hh)
      have hheadmem : fwh p v ∈ fw v := by
        rw [hfw.head v hv.1 hv.2, hAC]; cases A <;> simp
      have hhd : (arcs p.g).next (fwh p v) ≠ fwh p v := by
        obtain ⟨A', C', hs⟩ := List.append_of_mem hheadmem
        have hr2 := hfw.ring v
        have hnd2 := hfw.nodup v
        rw [hs] at hr2 hnd2
        rw [LC.ring_rotate] at hr2
        have hp : List.Perm (A' ++ fwh p v :: C') ((fwh p v :: C') ++ A') := List.perm_append_comm
        refine (ring_ne (T := C' ++ A') hr2 ?_ (hp.nodup_iff.1 hnd2)).1
        intro hh
        have l1 := congrArg List.length hs
        have l2 := congrArg List.length hAC
        have l3 := congrArg List.length hh
        have l4 : (C ++ A).length ≠ 0 := fun hh => h0 (List.eq_nil_of_length_eq_zero hh)
        simp only [List.length_append, List.length_cons, List.length_nil] at l1 l2 l3 l4
        omega
      have hfh : fwh p v < (arcs p.g).N := (hbd _ hheadmem).2
      unfold LC.delete at e1
      rw [LC.rdNext_eq hfh] at e1
      simp only [Option.bind_eq_bind, Option.bind_some] at e1
      rw [if_neg hhd] at e1
      unfold LC.unlink at e1
      have hfN : f < (arcs p.g).N := hfs
      rw [LC.rdNext_eq hfN, LC.rdPrev_eq hfN] at e1
      simp only [Option.bind_eq_bind, Option.bind_some] at e1
      have hqN : (arcs p.g).prev f < (arcs p.g).N := hqs
      rw [LC.wrNext_eq hqN] at e1
      simp only [Option.bind_some] at e1
      rw [LC.rdPrev_eq (by exact hfN), LC.rdNext_eq (by exact hfN)] at e1
      simp only [Option.bind_some] at e1
      have hp0 : (arcs p.g).prev f = q0 := rfl
      have hn0' : (arcs p.g).next f = n0 := rfl
      rw [hp0, hn0', if_neg hfq', LC.wrPrev_eq (by exact hns)] at e1
      simp only [Option.bind_some] at e1
      rw [LC.rdNext_eq (by exact hfN)] at e1
      simp only [Option.bind_some, pure, Option.some.injEq, Prod.mk.injEq] at e1
      obtain ⟨e1, e4⟩ := e1
      rw [if_neg hfq'] at e4
      refine e3.congr ?_ ?_ ?_
      · rw [← e1]; rfl
      · intro z _ _
        rw [hheads, update_apply, ← e4]
        split
        · rfl
        · rfl
      · intro z y _
        rw [hnext, hprev, ← e1]
        exact ⟨rfl, rfl⟩
  · exact (sameBut_setLinkE _ _ _ _).trans (sameBut_setLinkE _ _ _ _)
  · intro e he
    rw [hEg', if_neg, if_neg]
    · rintro rfl; exact he hmemq.1
    · rintro rfl; exact he hmemq.2
  · intro x
    simp only [VI']
    split
    · by_cases hx : x = v
      · subst hx; simp
      · simp [update_of_ne hx]
    · rfl

variable {B : Base} {G : Gh B.D} {s : EGraph}

theorem links_off {g g' : Graph} {rot : Nat → List Nat} (h : Links g rot) (hs : SameBut g g')
    (hE : ∀ w, ∀ e ∈ rot w, g'.E e = g.E e) (hV : g'.V = g.V) : Links g' rot := by
  constructor
  · intro v b hv; rw [hV]; exact h.vlink v b (by rw [← hs.vSize]; exact hv)
  · intro v b e he; rw [hE v e he]; exact h.elink v b e he
  · exact h.nodup
  · intro v e he; rw [hs.eSize]; exact h.arc v e he
  · intro v e he; rw [hs.vSize]; exact h.vert v e he
  · exact h.disj

theorem putEnd_dir (o : Bool) (e : Nat) (L : List Nat) : dir o (e :: L) = putEnd o e (dir o L) := by
  cases o <;> simp [putEnd]
theorem putEnd_dir' (o : Bool) (e : Nat) (L : List Nat) : dir o (L ++ [e]) = putEnd (!o) e (dir o L) := by
  cases o <;> simp [putEnd]

/-- What is known of the arcs waiting in forward arc lists. -/
structure Waiting (B : Base) (G : Gh B.D) (fw : Nat → List Nat) : Prop where
  arc : ∀ u, ∀ e ∈ fw u, B.A e
  off : ∀ u, ∀ e ∈ fw u, Off G e
  pair : ∀ u w e, e ∈ fw u → twin e ∉ fw w

/-- Embedding a back edge. -/
theorem embedBackEdge_spec (r : Rep B s G) (h : Good B.N B.par B.α G) {c v W f : Nat} {P Q : List Nat} {fw : Nat → List Nat}
    (hc : G.Live B.N c) (hv : B.par c = v) (hX : G.X c = P ++ W :: Q) (hpe : (s.p.VI W).pertinentEdge = f) (hf : f ∈ fw v)
    (hfw : Lists (arcs s.p.g) (fwh s.p) B.N fw) (hw : Waiting B G fw) (hnb : (s.p.g.E f).nbr = W) (hown : B.own f = v ∧ B.own (twin f) = W) :
    ∃ s', s.embedBackEdge (G.o (c + B.N)) (c + B.N) W (!G.o W) = some s' ∧
    Rep B s' (G.addEdge B.α B.N c W Q ⟨f, hw.arc v f hf⟩) ∧
      Lists (arcs s'.p.g) (fwh s'.p) B.N (update fw v ((fw v).erase f)) ∧
      (∀ x, s'.p.VI x = { s.p.VI x with fwdArcList := (s'.p.VI x).fwdArcList }) ∧ s'.kids = s.kids ∧ s'.roots = s.roots ∧
      s'.p.g.stack = s.p.g.stack ∧ (∀ e, e ≠ twin f → (s'.p.g.E e).nbr = (s.p.g.E e).nbr) ∧
      (∀ y d, s'.ext y d = if y = W ∧ d = !G.o W then c + B.N else if y = c + B.N ∧ d = G.o (c + B.N) then W else s.ext y d) := by
  generalize he : s.embedBackEdge (G.o (c + B.N)) (c + B.N) W (!G.o W) = o
  obtain ⟨hW1, hWN, hWcp⟩ := h.bd c hc W (by rw [hX]; simp)
  obtain ⟨hcN, hc0, hcr⟩ := h.root c hc
  have hc1 := hc.1
  have hlt := B.par_lt c hc1 hcN
  have hv1 : 1 ≤ v ∧ v ≤ B.N := by omega
  have hAf := hw.arc v f hf
  set R := c + B.N with hR
  obtain ⟨hf2, hfs⟩ := r.arc hAf
  obtain ⟨ht2, hts⟩ := r.arc (B.tw f hAf)
  have hRv : 1 ≤ R ∧ R < s.p.g.vSize := by rw [r.vSize]; omega
  have hWv : 1 ≤ W ∧ W < s.p.g.vSize := by rw [r.vSize]; omega
  have hWR : W ≠ R := by omega
  have hoff := hw.off v f hf
  unfold EGraph.embedBackEdge at he
  have h1 : s.p.rdVI W = some (s.p.VI W) := if_pos (by rw [r.N]; omega)
  have h2 : s.primaryOf R = some v := by
    unfold EGraph.primaryOf EGraph.childOf
    rw [r.N, if_pos (by omega)]
    simp only [Option.bind_eq_bind, Option.bind_some]
    unfold PGraph.getParent
    have : s.p.rdVI (R - B.N) = some (s.p.VI c) := by
      have e : R - B.N = c := by omega
      rw [e]; exact if_pos (by rw [r.N]; omega)
    rw [this]
    simp only [Option.bind_eq_bind, Option.bind_some, pure, Option.some.injEq]
    rw [r.parent c hc1 hcN, hv]
  rw [h1] at he
  simp only [Option.bind_eq_bind, Option.bind_some] at he
  rw [h2, hpe] at he
  simp only [Option.bind_some] at he
  obtain ⟨g1, VI1, e1, hfw1, hS1, hE1, hV1, hVI1⟩ := takeFwd_spec r.N hfw hv1 hf
  rw [e1] at he
  simp only [Option.bind_some] at he
  have hL1 : Links g1 (raw G) := links_off r.links hS1 (fun w e hw' => hE1 e fun hh => (hw.off v e hh w).1 hw') hV1
  have hneR : raw G R ≠ [] := fun hh => hc.2 (raw_nil.1 hh)
  have hneW : raw G W ≠ [] := by
    obtain ⟨w, wl, hLW⟩ := hd_some h hc (Z := W) (by rw [hX]; simp)
    intro hh
    rw [raw_nil, hLW] at hh; simp at hh
  obtain ⟨g2, e2, hL2, hS2, hE2⟩ := putArc_spec hL1 (v := R) (x := f) (G.o R) (by rw [hS1.vSize]; exact hRv)
    (by rw [hS1.eSize]; exact ⟨hf2, hfs⟩) (fun w => (hoff w).1) hneR
  rw [e2] at he
  simp only [Option.bind_some] at he
  set rot2 := update (raw G) R (putEnd (G.o R) f (raw G R)) with hrot2
  have hmemPut : ∀ (b : Bool) (x y : Nat) (L : List Nat), y ∈ putEnd b x L ↔ y = x ∨ y ∈ L := by
    intro b x y L; cases b <;> simp [putEnd, or_comm]
  have hmem2 : ∀ e y, e ∈ rot2 y ↔ e ∈ raw G y ∨ (y = R ∧ e = f) := by
    intro e y
    rw [hrot2]
    by_cases hy : y = R
    · subst hy; rw [update_self, hmemPut]; tauto
    · rw [update_of_ne hy]; simp [hy]
  have hfr2 : ∀ w, twin f ∉ rot2 w := by
    intro w hh
    rcases (hmem2 _ _).1 hh with hh | ⟨_, hh⟩
    · exact (hoff w).2 hh
    · exact twin_ne f hh
  obtain ⟨g3, e3, hL3, hS3, hE3⟩ := putArc_spec hL2 (v := W) (x := twin f) (!G.o W) (by rw [hS2.vSize, hS1.vSize]; exact hWv)
    (by rw [hS2.eSize, hS1.eSize]; exact ⟨ht2, hts⟩) hfr2 (by rw [hrot2, update_of_ne hWR]; exact hneW)
  rw [e3] at he
  simp only [Option.bind_some] at he
  have hts3 : twin f < g3.eSize := by rw [hS3.eSize, hS2.eSize, hS1.eSize]; exact hts
  rw [setNbr_eq hts3] at he
  simp only [Option.bind_some] at he
  set g4 := g3.updE (twin f) (fun r => { r with nbr := R }) with hg4
  have hv4 : g4.vSize = s.p.g.vSize := by
    show g3.vSize = _
    rw [hS3.vSize, hS2.vSize, hS1.vSize]
  set sA := s.setP ((⟨g1, VI1⟩ : PGraph).setG g4) with hsA
  have hRA : R < sA.p.g.vSize := by show R < g4.vSize; rw [hv4]; exact hRv.2
  rw [setExt_eq hRA] at he
  simp only [Option.bind_some] at he
  have hWA : W < (withExt sA R (G.o R) W).p.g.vSize := by show W < g4.vSize; rw [hv4]; exact hWv.2
  rw [setExt_eq hWA] at he
  subst he
  have hS123 : SameBut s.p.g g3 := (hS1.trans hS2).trans hS3
  have hF : Fix s.p.g g4 := by
    refine (fix_of_same hS123).trans ?_
    constructor <;> intros <;> rfl
  have hlk4 : ∀ e d, (g4.E e).link d = (g3.E e).link d := by
    intro e d; rw [hg4, updE_E]; split <;> rfl
  have hfl4 : ∀ e, (g4.E e).flags = (s.p.g.E e).flags := by
    intro e
    rw [hg4, updE_E]
    have := hS123.eflags e
    split <;> exact this
  have hnb4 : ∀ e, (g4.E e).nbr = if e = twin f then R else (s.p.g.E e).nbr := by
    intro e
    rw [hg4, updE_E]
    have := hS123.nbr e
    split
    · rfl
    · exact this
  have hkeep : ∀ e, e ≠ f → e ≠ twin f → (∀ w, e ∉ raw G w) → g4.E e = g1.E e := by
    intro e h3 h4 h5
    rw [hg4, updE_E, if_neg h4]
    have h6 : ∀ w, e ∉ rot2 w := by
      intro w hh
      rcases (hmem2 _ _).1 hh with hh | ⟨_, hh⟩
      · exact h5 w hh
      · exact h3 hh
    rw [hE3 e h4 h6, hE2 e h3 h5]
  set d0 : B.D := ⟨f, hAf⟩ with hd0
  have hrawA : raw (G.addEdge B.α B.N c W Q d0) = update rot2 W (putEnd (!G.o W) (twin f) (rot2 W)) := by
    funext y
    unfold raw
    rw [add_L hWN hc1]
    show dir (G.o y) _ = _
    by_cases hyW : y = W
    · subst hyW
      rw [if_pos rfl, update_self, List.map_append, hrot2, update_of_ne hWR]
      exact putEnd_dir' _ _ _
    · rw [if_neg hyW, update_of_ne hyW, hrot2]
      by_cases hyR : y = R
      · subst hyR
        rw [if_pos rfl, update_self]
        exact putEnd_dir _ _ _
      · rw [if_neg hyR, update_of_ne hyR]
        rfl
  have hmemA : ∀ e y, e ∈ raw (G.addEdge B.α B.N c W Q d0) y ↔ e ∈ raw G y ∨ (y = R ∧ e = f) ∨ (y = W ∧ e = twin f) := by
    intro e y
    rw [hrawA]
    by_cases hy : y = W
    · subst hy; rw [update_self, hmemPut, hmem2]; simp [hWR]; tauto
    · rw [update_of_ne hy, hmem2]; simp [hy]
  have hholdA : ∀ k, holder (G.addEdge B.α B.N c W Q d0) k = holder G k ∨ k + B.N = W := by
    intro k
    by_cases hkW : k + B.N = W
    · exact .inr hkW
    · left
      unfold holder
      rw [add_L hWN hc1, if_neg hkW]
      by_cases hkR : k + B.N = R
      · have hkc : k = c := by omega
        subst hkc
        have := hc.2
        simp [hR, this]
      · have : ¬ k + B.N = c + B.N := hkR
        rw [if_neg this]
  have hholdA' : ∀ k, B.Child k → holder (G.addEdge B.α B.N c W Q d0) k = holder G k := by
    intro k hk
    rcases hholdA k with h1 | h1
    · exact h1
    · have := hk.1; omega
  refine ⟨_, rfl, ⟨?_, ?_, ?_, ?_, ?_, ?_, ?_, ?_, ?_, ?_, ?_⟩, ?_, ?_, rfl, rfl, ?_, ?_, ?_⟩
  · exact r.fix.trans hF
  · rw [hrawA]
    exact hL3.congr rfl rfl hlk4 (fun _ _ => rfl)
  · intro y e hy
    show (g4.E (twin e)).nbr = y
    rw [hnb4]
    rcases (hmemA e y).1 hy with h3 | ⟨rfl, rfl⟩ | ⟨rfl, rfl⟩
    · rw [if_neg]
      · exact r.owner _ _ h3
      · intro hh
        exact (hoff y).1 (twin_inj hh ▸ h3)
    · rw [if_pos rfl]
    · rw [twin_twin, if_neg (fun hh => twin_ne f hh.symm)]; exact hnb
  · intro e hA
    show (g4.E e).flags &&& 14 = 14 ↔ _
    rw [hfl4]; exact r.typ e hA
  · intro e hA
    show (g4.E e).flags &&& 14 = 6 ↔ _
    rw [hfl4]; exact r.typ' e hA
  · intro k hk
    rw [hholdA' k hk, hmemA]; exact .inl (r.hold k hk)
  · intro k hk
    rw [hmemA]; exact .inl (r.foot k hk)
  · intro k hk
    show (g4.E (B.ta k)).flags.testBit 4 = (G.o k != G.o (holder (G.addEdge B.α B.N c W Q d0) k))
    rw [hholdA' k hk, hfl4]; exact r.sign k hk
  · intro y h3 h4
    show (VI1 y).parent = _
    rw [hVI1]; exact r.parent y h3 h4
  · intro e hA
    show g4.E e = {}
    rw [hkeep e (fun hh => hA (hh ▸ hAf)) (fun hh => hA (hh ▸ B.tw f hAf)) (fun w hh => hA (mem_raw.1 hh).1),
      hE1 e (fun hh => hA (hw.arc v e hh))]
    exact r.zero e hA
  · intro y e hy
    rcases (hmemA e y).1 hy with h3 | ⟨rfl, rfl⟩ | ⟨rfl, rfl⟩
    · exact r.home _ _ h3
    · rw [hown.1, hR, B.home_root hc1, hv]
    · rw [hown.2, B.home_le hWN]
  · refine hfw1.congr ?_ (fun _ _ _ => rfl) ?_
    · show g4.eSize = g1.eSize
      show g3.eSize = _
      rw [hS3.eSize, hS2.eSize]
    · intro z y hy
      have hyw : ∃ u, y ∈ fw u := by
        by_cases hz : z = v
        · subst hz; rw [update_self] at hy; exact ⟨z, List.mem_of_mem_erase hy⟩
        · rw [update_of_ne hz] at hy; exact ⟨z, hy⟩
      obtain ⟨u, hu⟩ := hyw
      have hyf : y ≠ f := by
        rintro rfl
        by_cases hz : z = v
        · subst hz
          rw [update_self] at hy
          exact (List.Nodup.not_mem_erase (hfw.nodup z)) hy
        · rw [update_of_ne hz] at hy
          exact hz (hfw.disj _ _ _ hy hf)
      have := hkeep y hyf (fun hh => hw.pair v u f hf (hh ▸ hu)) (fun w => (hw.off u y hu w).1)
      show (g4.E y).link false = (g1.E y).link false ∧ (g4.E y).link true = (g1.E y).link true
      rw [this]; exact ⟨rfl, rfl⟩
  · intro x; exact hVI1 x
  · show g4.stack = _
    show g3.stack = _
    rw [hS123.stack]
  · intro e he
    show (g4.E e).nbr = _
    rw [hnb4, if_neg he]
  · intro y d; rfl

end Verif.Embed
