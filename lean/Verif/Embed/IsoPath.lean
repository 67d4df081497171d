import Verif.Embed.IsoWalk

/-
The search for a path between the two sides of the outer face, with the inner edges of a vertex hidden meanwhile.
-/
namespace Verif.Isolate
open Verif Verif.Embed Verif.Graph Verif.EGraph Verif.Random Verif.Test Function

variable {A : Nat → Prop} {g g' : Graph} {L : Nat → List Nat}

/-! Restoring edges does not look at marks. -/

theorem setAdj_strip (g : Graph) (e : Nat) (b : Bool) (x : Nat) : (strip g).setAdj e b x = (g.setAdj e b x).map strip := by
  unfold setAdj rdE wrE
  by_cases h : e < g.eSize
  · have h' : e < (strip g).eSize := h
    simp only [if_pos h, if_pos h', Option.bind_eq_bind, Option.bind_some, Option.map_some]
    unfold strip
    congr 2
    funext y
    by_cases hy : y = e
    · subst hy; cases b <;> simp [ERec.setLink]
    · simp [hy]
  · have h' : ¬ e < (strip g).eSize := h
    simp only [if_neg h, if_neg h']; rfl

theorem setArc_strip (g : Graph) (v : Nat) (b : Bool) (x : Nat) : (strip g).setArc v b x = (g.setArc v b x).map strip := by
  unfold setArc rdV wrV
  by_cases h : v < g.vSize
  · have h' : v < (strip g).vSize := h
    simp only [if_pos h, if_pos h', Option.bind_eq_bind, Option.bind_some, Option.map_some]
    unfold strip
    congr 2
    funext y
    by_cases hy : y = v
    · subst hy; cases b <;> simp [VRec.setLink]
    · simp [hy]
  · have h' : ¬ v < (strip g).vSize := h
    simp only [if_neg h, if_neg h']; rfl

theorem getAdj_strip (g : Graph) (e : Nat) (b : Bool) : (strip g).getAdj e b = g.getAdj e b := by
  unfold getAdj rdE
  by_cases h : e < g.eSize
  · have h' : e < (strip g).eSize := h
    simp only [if_pos h, if_pos h']; rfl
  · have h' : ¬ e < (strip g).eSize := h
    simp only [if_neg h, if_neg h']

theorem getNbr_strip (g : Graph) (e : Nat) : (strip g).getNbr e = g.getNbr e := by
  unfold getNbr rdE
  by_cases h : e < g.eSize
  · have h' : e < (strip g).eSize := h
    simp only [if_pos h, if_pos h']; rfl
  · have h' : ¬ e < (strip g).eSize := h
    simp only [if_neg h, if_neg h']

/-- One half of restoring an arc. -/
def mend (g : Graph) (b : Bool) (n arc : Nat) : Option Graph :=
  if n ≠ 0 then g.setAdj n (!b) arc else do g.setArc (← g.getNbr (twin arc)) (!b) arc

theorem mend_strip (g : Graph) (b : Bool) (n arc : Nat) : mend (strip g) b n arc = (mend g b n arc).map strip := by
  unfold mend
  split
  · exact setAdj_strip g n _ arc
  · rw [getNbr_strip]
    cases g.getNbr (twin arc) with
    | none => rfl
    | some x => exact setArc_strip g x _ arc

theorem restoreArc_mend (g : Graph) (arc : Nat) : g.restoreArc arc = (g.getAdj arc false).bind fun n => (g.getAdj arc true).bind fun p =>
    (mend g false n arc).bind fun g => mend g true p arc := by
  unfold restoreArc mend
  cases g.getAdj arc false with
  | none => rfl
  | some n =>
    cases g.getAdj arc true with
    | none => rfl
    | some p =>
      simp only [Option.bind_eq_bind, Option.bind_some]
      by_cases hn : n ≠ 0
      · rw [if_pos hn, if_pos hn]; rfl
      · rw [if_neg hn, if_neg hn]
        cases g.getNbr (twin arc) with
        | none => rfl
        | some x => rfl

theorem restoreArc_strip (g : Graph) (arc : Nat) : (strip g).restoreArc arc = (g.restoreArc arc).map strip := by
  rw [restoreArc_mend, restoreArc_mend, getAdj_strip, getAdj_strip]
  cases g.getAdj arc false with
  | none => rfl
  | some n =>
    cases g.getAdj arc true with
    | none => rfl
    | some p =>
      simp only [Option.bind_some]
      rw [mend_strip]
      cases mend g false n arc with
      | none => rfl
      | some g1 => exact mend_strip g1 true p arc

theorem restoreEdge_strip (g : Graph) (e : Nat) : (strip g).restoreEdge e = (g.restoreEdge e).map strip := by
  unfold restoreEdge
  rw [restoreArc_strip]
  cases g.restoreArc (twin e) with
  | none => rfl
  | some g1 => exact restoreArc_strip g1 e

/-- Flags and the stack are as before. -/
structure Flg (g g' : Graph) : Prop where
  e : ∀ e, (g'.E e).flags = (g.E e).flags
  stack : g'.stack = g.stack

theorem Flg.trans {g g' g'' : Graph} (h : Flg g g') (h' : Flg g' g'') : Flg g g'' :=
  ⟨fun e => (h'.e e).trans (h.e e), h'.stack.trans h.stack⟩

theorem setAdj_flg (e : Nat) (b : Bool) (x : Nat) : Ens (g.setAdj e b x) (Flg g) := by
  unfold setAdj
  refine Ens.bind (rdE_val e) fun r hr => ?_
  unfold wrE
  refine Ens.ite (fun _ => Ens.some ⟨?_, rfl⟩) fun _ => Ens.none
  intro y
  show (update g.E e _ y).flags = _
  by_cases hy : y = e
  · subst hy; rw [update_self, hr]; cases b <;> rfl
  · rw [update_of_ne hy]

theorem setArc_flg (v : Nat) (b : Bool) (x : Nat) : Ens (g.setArc v b x) (Flg g) := by
  unfold setArc
  refine Ens.bind (rdV_val v) fun r hr => ?_
  unfold wrV
  exact Ens.ite (fun _ => Ens.some ⟨fun _ => rfl, rfl⟩) fun _ => Ens.none

theorem mend_flg (b : Bool) (n arc : Nat) : Ens (mend g b n arc) (Flg g) := by
  unfold mend
  exact Ens.ite (fun _ => setAdj_flg _ _ _) fun _ => Ens.skip fun x _ => setArc_flg _ _ _

theorem restoreArc_flg (arc : Nat) : Ens (g.restoreArc arc) (Flg g) := by
  rw [restoreArc_mend]
  exact Ens.skip fun n _ => Ens.skip fun p _ => Ens.bind (mend_flg _ _ _) fun g1 h1 => (mend_flg _ _ _).mono fun _ h => h1.trans h

theorem restoreEdge_flg (e : Nat) : Ens (g.restoreEdge e) (Flg g) := by
  unfold restoreEdge
  exact Ens.bind (restoreArc_flg _) fun g1 h1 => (restoreArc_flg _).mono fun _ h => h1.trans h

/-- Restoring the edges of the list gives back `g0`, up to marks. -/
def Hid (g0 : Graph) : List Nat → Graph → Prop
  | [], g => strip g = strip g0
  | e :: l, g => e ≠ 0 ∧ ∃ g1, g.restoreEdge e = some g1 ∧ Hid g0 l g1

theorem Hid.congr {g0 : Graph} : ∀ {l : List Nat} {g g' : Graph}, Hid g0 l g → strip g' = strip g → Hid g0 l g'
  | [], _, _, h, hs => hs.trans h
  | e :: l, g, g', ⟨h0, g1, h1, h2⟩, hs => by
    refine ⟨h0, ?_⟩
    have e1 := restoreEdge_strip g e
    have e2 := restoreEdge_strip g' e
    rw [hs, e1, h1] at e2
    cases hh : g'.restoreEdge e with
    | none => rw [hh] at e2; cases e2
    | some g1' =>
      rw [hh] at e2
      exact ⟨g1', rfl, h2.congr (Option.some.inj e2).symm⟩

/-- The edges on the stack are restored. -/
theorem restoreHidden_spec {g0 : Graph} {base : List Nat} : ∀ (l : List Nat) (fuel : Nat) (g : Graph), Hid g0 l g → g.stack = l ++ base →
    Ens (restoreHidden fuel g base.length) fun r => r.2 = .ok → strip r.1 = strip g0 ∧ (∀ e, (r.1.E e).flags = (g.E e).flags) ∧ r.1.stack = base
  | [], fuel, g, h, hs => by
    have hl : ¬ g.stack.length > base.length := by rw [hs]; simp
    cases fuel with
    | zero => unfold restoreHidden; rw [if_neg hl]; exact Ens.some fun _ => ⟨h, fun _ => rfl, hs⟩
    | succ n => unfold restoreHidden; rw [if_neg hl]; exact Ens.some fun _ => ⟨h, fun _ => rfl, hs⟩
  | e :: l, 0, g, h, hs => by
    have hl : g.stack.length > base.length := by rw [hs]; simp
    unfold restoreHidden; rw [if_pos hl]; exact Ens.none
  | e :: l, fuel + 1, g, ⟨h0, g1, h1, h2⟩, hs => by
    have hl : g.stack.length > base.length := by rw [hs]; simp
    unfold restoreHidden
    rw [if_pos hl]
    have hp : g.pop = some (e, { g with stack := l ++ base }) := by unfold pop; rw [hs]; rfl
    rw [hp]
    simp only [Option.bind_eq_bind, Option.bind_some]
    rw [if_neg h0]
    have h1' : Hid g0 (e :: l) { g with stack := l ++ base } := Hid.congr (l := e :: l) (g := g) ⟨h0, g1, h1, h2⟩ rfl
    obtain ⟨_, g2, h3, h4⟩ := h1'
    have hf := restoreEdge_flg e g2 h3
    rw [h3, Option.bind_some]
    refine (restoreHidden_spec l fuel g2 h4 hf.stack).mono fun r h => fun hr => ?_
    obtain ⟨a, b, c⟩ := h hr
    exact ⟨a, fun x => by rw [b, hf.e], c⟩

/-- Hiding an edge of the lists. -/
theorem Lk.hide (k : Lk A g L) {x e : Nat} (he : e ∈ L x) : ∃ g', g.hideEdge e = some g' ∧ Lk A g' (removeRot e L) ∧ g'.restoreEdge e = some g ∧
    g'.E e = g.E e ∧ g'.stack = g.stack := by
  obtain ⟨y, hy⟩ := k.pair x e he
  obtain ⟨g', h1, h2, h3, h4, h5, h6⟩ := hideEdge_spec k.links k.owner he hy
  refine ⟨g', h1, ⟨h2, ?_, ?_, ?_, ?_, ?_, k.nil⟩, h5, h6, h3.stack⟩
  · intro z a ha; rw [h3.nbr]; exact k.owner z a (mem_removeRot.1 ha).1
  · intro z a ha
    obtain ⟨b1, b2, b3⟩ := mem_removeRot.1 ha
    obtain ⟨u, hu⟩ := k.pair z a b1
    exact ⟨u, mem_removeRot.2 ⟨hu, fun hh => b3 (twin_eq_iff.1 hh), fun hh => b2 (twin_inj hh)⟩⟩
  · intro z a ha; exact k.arc z a (mem_removeRot.1 ha).1
  · intro z a ha hh; exact k.apart z a (mem_removeRot.1 ha).1 (mem_removeRot.1 hh).1
  · intro a ha
    rw [h4 a fun u hu => ha (k.arc u a hu)]
    exact k.blank a ha

theorem nextIn_ne : ∀ {l : List Nat} {e : Nat}, l.Nodup → e ≠ 0 → nextIn l e ≠ e
  | [], _, _, h => fun hh => h hh.symm
  | a :: l, e, hn, h0 => by
    obtain ⟨h1, h2⟩ := List.nodup_cons.1 hn
    unfold nextIn
    split
    · rename_i ha
      subst ha
      cases l with
      | nil => exact fun hh => h0 hh.symm
      | cons b l => exact fun hh => h1 (by rw [← hh]; simp)
    · exact nextIn_ne h2 h0

/-- The state while edges are hidden. -/
structure Hiding (A : Nat → Prop) (g0 : Graph) (base : List Nat) (x : Nat) (g : Graph) : Prop where
  lk : ∃ L, Lk A g L ∧ L x ≠ []
  hid : ∃ l, Hid g0 l g ∧ g.stack = l ++ base

theorem hideInternal_spec {g0 : Graph} {base : List Nat} {x : Nat} : ∀ (fuel : Nat) (g : Graph) (e : Nat) (L : Nat → List Nat), Lk A g L →
    (∃ l, Hid g0 l g ∧ g.stack = l ++ base) → e ∈ L x → Ens (hideInternal x fuel g e) (Hiding A g0 base x)
  | 0, _, _, _, _, _, _ => Ens.none
  | fuel + 1, g, e, L, k, ⟨l, h1, h2⟩, he => by
    unfold hideInternal
    refine Ens.bind (getArc_val x true) fun a ha => Ens.ite (fun _ => Ens.pure ⟨⟨L, k, List.ne_nil_of_mem he⟩, l, h1, h2⟩) fun hne => ?_
    have hp : Ens (g.push e) fun g' => g' = { g with stack := e :: g.stack } := by
      unfold push; exact Ens.ite (fun _ => Ens.some rfl) fun _ => Ens.none
    refine Ens.bind hp fun g1 hg1 => ?_
    subst hg1
    have k1 : Lk A { g with stack := e :: g.stack } L := k.fr (fr_stack _ _)
    obtain ⟨g2, e1, k2, e2, e3, e4⟩ := k1.hide he
    refine Ens.bind (P := fun g => g = g2) (fun g h => by rw [e1] at h; exact (Option.some.inj h).symm) fun g' hg' => ?_
    subst hg'
    refine Ens.bind (getAdj_val e false) fun n hn => hideInternal_spec fuel g' n _ k2 ⟨e :: l, ⟨?_, _, e2, ?_⟩, ?_⟩ ?_
    · rintro rfl; exact k.nil (k.arc x 0 he)
    · exact h1.congr rfl
    · rw [e4, h2]; rfl
    · rw [e3] at hn
      have hn : n = nextIn (L x) e := by rw [hn]; exact k.links.elink x false e he
      have h0 := k.links.zero_not_mem x
      have hn0 : n ≠ 0 := by
        intro hh
        rw [hn] at hh
        rw [nextIn_eq_zero_iff (k.links.nodup x) h0 he] at hh
        rw [ha.2, k.links.vlink x true ha.1] at hne
        exact hne hh.symm
      have hm : n ∈ L x := by rw [hn] at hn0 ⊢; exact nextIn_mem hn0
      refine mem_removeRot.2 ⟨hm, ?_, ?_⟩
      · rintro hne'
        rw [hn] at hne'
        exact nextIn_ne (k.links.nodup x) (fun hh => h0 (hh ▸ he)) hne'
      · rintro hne'
        rw [hne'] at hm
        exact k.apart x e he hm

theorem hideInternalEdges_spec (k : Lk A g L) {x : Nat} (hx : L x ≠ []) : Ens (hideInternalEdges g x) (Hiding A g g.stack x) := by
  unfold hideInternalEdges
  refine Ens.bind (getArc_val x false) fun e he => Ens.bind (getArc_val x true) fun l hl => ?_
  refine Ens.ite (fun _ => Ens.pure ⟨⟨L, k, hx⟩, [], rfl, rfl⟩) fun hne => Ens.bind (getAdj_val e false) fun n hn => ?_
  rw [k.links.vlink x _ he.1] at he hl
  have h0 := k.links.zero_not_mem x
  have hem : e ∈ L x := by rw [he.2]; exact endIn_mem fun hh => hx ((endIn_zero_iff h0).1 hh)
  rw [k.links.elink x false e hem] at hn
  have hn0 : n ≠ 0 := by
    intro hh
    rw [hn] at hh
    have := (nextIn_eq_zero_iff (k.links.nodup x) h0 hem).1 hh
    rw [hl.2] at hne
    exact hne this.symm
  refine hideInternal_spec _ g n L k ⟨[], rfl, rfl⟩ ?_
  rw [hn] at hn0 ⊢
  exact mem_dir.1 (nextIn_mem hn0)

/-- The marks above a part of the stack come in pairs. -/
def Pairs (base st : List Nat) : Prop := ∃ w, st = w ++ base ∧ w.length % 2 = 0

theorem popUnmark_spec {Z : Nat} {base : List Nat} : ∀ (fuel : Nat) (g : Graph), Pairs base g.stack →
    Ens (popUnmark Z base.length fuel g) fun g' => Fr A g g' ∧ Pairs base g'.stack
  | 0, g, h => by unfold popUnmark; exact Ens.ite (fun _ => Ens.some ⟨Fr.refl _ _, h⟩) fun _ => Ens.none
  | fuel + 1, g, ⟨w, h1, h2⟩ => by
    unfold popUnmark
    refine Ens.ite (fun _ => Ens.some ⟨Fr.refl _ _, w, h1, h2⟩) fun hl => ?_
    match w, h1, h2 with
    | [], h1, _ => exact absurd (by rw [h1]; simp) hl
    | [_], _, h2 => simp at h2
    | a :: b :: w, h1, h2 =>
      have hp : g.pop = some (a, { g with stack := b :: (w ++ base) }) := by unfold pop; rw [h1]; rfl
      rw [hp]
      refine Ens.ite (fun _ => Ens.pure ⟨Fr.refl _ _, a :: b :: w, h1, h2⟩) fun _ => ?_
      show Ens ((some (b, { g with stack := w ++ base }) : Option (Nat × Graph)) >>= _) _
      have hvs : ∀ (g : Graph) (v : Nat), Ens (g.clearVisited v) fun g' => g'.stack = g.stack := by
        intro g v
        unfold clearVisited wrV
        exact Ens.skip fun r _ => Ens.ite (fun _ => Ens.some rfl) fun _ => Ens.none
      have hes : ∀ (g : Graph) (e : Nat), Ens (clearEdgeVisited g e) fun g' => g'.stack = g.stack := by
        intro g v
        unfold clearEdgeVisited wrE
        exact Ens.skip fun r _ => Ens.ite (fun _ => Ens.some rfl) fun _ => Ens.none
      show Ens ({ g with stack := w ++ base }.clearVisited a >>= _) _
      refine Ens.skip fun g1 e1 => Ens.skip fun g2 e2 => ?_
      have hf1 : Fr A { g with stack := w ++ base } g1 := clearVisited_fr a g1 e1
      have hf2 : Fr A g1 g2 := unmarkEdge_fr b g2 e2
      have hs1 : g1.stack = w ++ base := hvs _ _ g1 e1
      have hs2 : g2.stack = g1.stack := by
        have : Ens (unmarkEdge g1 b) fun g' => g'.stack = g1.stack := by
          unfold unmarkEdge
          exact Ens.bind (hes _ _) fun g' h => (hes _ _).mono fun _ h' => h'.trans h
        exact this g2 e2
      refine (popUnmark_spec fuel g2 ⟨w, hs2.trans hs1, by simp only [List.length_cons] at h2; omega⟩).mono fun g' h => ⟨?_, h.2⟩
      exact ((Fr.trans (fr_stack g (w ++ base)) hf1).trans hf2).trans h.1

/-- What the walk along the face keeps. -/
structure Kept (A : Nat → Prop) (base : List Nat) (s s' : EGraph) : Prop where
  fr : Fr A s.p.g s'.p.g
  rest : Rest s s'
  stack : Pairs base s'.p.g.stack
  ic : ∃ a b, s'.ic = { s.ic with px := a, py := b }

theorem Kept.trans {base : List Nat} {s s' s'' : EGraph} (h : Kept A base s s') (h' : Kept A base s' s'') : Kept A base s s'' := by
  obtain ⟨a, b, e⟩ := h.ic
  obtain ⟨a', b', e'⟩ := h'.ic
  exact ⟨h.fr.trans h'.fr, h.rest.trans h'.rest, h'.stack, a', b', by rw [e', e]⟩

theorem restart_spec {s : EGraph} {base : List Nat} (hp : Pairs base s.p.g.stack) (Z : Nat) : Ens (s.restart base.length Z) (Kept A base s) := by
  unfold restart
  refine Ens.skip fun a _ => Ens.ite (fun _ => Ens.bind (popUnmark_spec (A := A) _ _ hp) fun g1 h1 => Ens.pure ?_) fun _ => Ens.pure ?_
  · exact ⟨h1.1, ⟨rfl, rfl, rfl, rfl⟩, h1.2, Z, s.ic.py, rfl⟩
  · exact ⟨Fr.refl _ _, .refl _, hp, s.ic.px, s.ic.py, rfl⟩

theorem stack_of_V (v n : Nat) : Ens (g.wrV v { g.V v with flags := n }) fun g' => g'.stack = g.stack := by
  unfold wrV; exact Ens.ite (fun _ => Ens.some rfl) fun _ => Ens.none
theorem setVisited_stack (v : Nat) : Ens (g.setVisited v) fun g' => g'.stack = g.stack := by
  unfold setVisited; exact Ens.bind (rdV_val v) fun _ h => by rw [h]; exact stack_of_V v _
theorem setEdgeVisited_stack (e : Nat) : Ens (setEdgeVisited g e) fun g' => g'.stack = g.stack := by
  unfold setEdgeVisited wrE
  exact Ens.skip fun r _ => Ens.ite (fun _ => Ens.some rfl) fun _ => Ens.none
theorem markEdge_stack (e : Nat) : Ens (markEdge g e) fun g' => g'.stack = g.stack := by
  unfold markEdge
  exact Ens.bind (setEdgeVisited_stack _) fun g' h => (setEdgeVisited_stack _).mono fun _ h' => h'.trans h

theorem push2_pairs {base : List Nat} (hp : Pairs base g.stack) (x y : Nat) : Ens (g.push2 x y) fun g' => Pairs base g'.stack := by
  obtain ⟨w, h1, h2⟩ := hp
  unfold push2
  have hs : ∀ (g : Graph) (z : Nat), Ens (g.push z) fun g' => g'.stack = z :: g.stack := by
    intro g z; unfold push; exact Ens.ite (fun _ => Ens.some rfl) fun _ => Ens.none
  refine Ens.bind (hs g x) fun g1 e1 => (hs g1 y).mono fun g2 e2 => ⟨y :: x :: w, ?_, ?_⟩
  · rw [e2, e1, h1]; rfl
  · simp only [List.length_cons]; omega

theorem meetNew_spec {s : EGraph} {base : List Nat} (k : Lk A s.p.g L) (hp : Pairs base s.p.g.stack) {x e : Nat} (he : e ∈ L x) (Z : Nat) :
    Ens (s.meetNew base.length e Z) fun r => Kept A base s r.1 := by
  unfold meetNew
  refine Ens.bind (restart_spec (A := A) hp Z) fun s1 h1 => Ens.skip fun g1 e1 => Ens.skip fun g2 e2 => ?_
  have f1 : Fr A s1.p.g g1 := push2_fr _ _ g1 e1
  have p1 : Pairs base g1.stack := push2_pairs h1.stack _ _ g1 e1
  have f2 : Fr A g1 g2 := setVisited_fr _ g2 e2
  have p2 : g2.stack = g1.stack := setVisited_stack _ g2 e2
  have k2 := ((k.fr h1.fr).fr f1).fr f2
  have hj : ∀ g3, Fr A g2 g3 ∧ g3.stack = g2.stack → Ens (onY g3 Z >>= fun b => if b = true then
      Pure.pure ((s1.setG g3).setIC { (s1.setG g3).ic with py := Z }, true) else Pure.pure (s1.setG g3, false)) fun r => Kept A base s r.1 := by
    rintro g3 ⟨f3, p3⟩
    have hk : Kept A base s (s1.setG g3) := by
      refine h1.trans ⟨(f1.trans f2).trans f3, ⟨rfl, rfl, rfl, rfl⟩, ?_, s1.ic.px, s1.ic.py, rfl⟩
      show Pairs base g3.stack
      rw [p3, p2]; exact p1
    refine Ens.skip fun b _ => Ens.ite (fun _ => Ens.pure ?_) fun _ => Ens.pure hk
    exact hk.trans ⟨Fr.refl _ _, ⟨rfl, rfl, rfl, rfl⟩, hk.stack, s1.ic.px, Z, rfl⟩
  refine Ens.ite (fun _ => Ens.skip fun g3 e3 => hj g3 ⟨k2.mark he g3 e3, markEdge_stack e g3 e3⟩) fun _ => ?_
  exact Ens.bind (Ens.some (P := fun g3 => g3 = g2) rfl) fun g3 h3 => hj g3 (h3 ▸ ⟨Fr.refl _ _, rfl⟩)

theorem xyLoop_spec {hi : Bool} {anti : Nat} {base : List Nat} : ∀ (fuel : Nat) (s : EGraph) (Z e : Nat), Lk A s.p.g L → Pairs base s.p.g.stack →
    (∃ x, e ∈ L x) → Ens (xyLoop hi anti base.length fuel s Z e) (Kept A base s)
  | 0, _, _, _, _, _, _ => Ens.none
  | fuel + 1, s, Z, e, k, hp, ⟨x, he⟩ => by
    unfold xyLoop
    have hk : Kept A base s s := ⟨Fr.refl _ _, .refl _, hp, s.ic.px, s.ic.py, rfl⟩
    refine Ens.skip fun b _ => Ens.ite (fun _ => Ens.pure hk) fun _ => ?_
    have hj : ∀ e, e ∈ L x → Ens (do
        let Z ← s.p.g.getNbr e
        let e := twin e
        let vis ← s.p.g.getVisited Z
        if vis then do
          let g ← popUnmark Z base.length s.p.g.stack.length s.p.g
          xyLoop hi anti base.length fuel (s.setG g) Z e
        else if Z = anti then do
          let g ← popUnmark 0 base.length s.p.g.stack.length s.p.g
          return s.setG g
        else do
          let (s, done) ← s.meetNew base.length e Z
          if done then return s else xyLoop hi anti base.length fuel s Z e) (Kept A base s) := by
      intro e he
      obtain ⟨y, hy⟩ := k.pair x e he
      refine Ens.skip fun Z' _ => Ens.skip fun vis _ => Ens.ite (fun _ => ?_) fun _ => Ens.ite (fun _ => ?_) fun _ => ?_
      · refine Ens.bind (popUnmark_spec (A := A) _ _ hp) fun g1 h1 => ?_
        have hk1 : Kept A base s (s.setG g1) := ⟨h1.1, ⟨rfl, rfl, rfl, rfl⟩, h1.2, s.ic.px, s.ic.py, rfl⟩
        exact (xyLoop_spec fuel (s.setG g1) Z' (twin e) (k.fr h1.1) h1.2 ⟨y, hy⟩).mono fun _ h => hk1.trans h
      · refine Ens.bind (popUnmark_spec (A := A) _ _ hp) fun g1 h1 => Ens.pure ?_
        exact ⟨h1.1, ⟨rfl, rfl, rfl, rfl⟩, h1.2, s.ic.px, s.ic.py, rfl⟩
      · refine Ens.bind (meetNew_spec k hp hy Z') fun ⟨s1, d⟩ h1 => ?_
        refine Ens.ite (fun _ => Ens.pure h1) fun _ => ?_
        exact (xyLoop_spec fuel s1 Z' (twin e) (k.fr h1.fr) h1.stack ⟨y, hy⟩).mono fun _ h => h1.trans h
    exact Ens.ite (fun _ => Ens.bind (k.prev he) hj) fun _ => Ens.bind (k.next he) hj

theorem closestXYPath_spec {s : EGraph} (k : Lk A s.p.g L) {target : Nat} (hr : L s.ic.r ≠ []) (hw : target = s.ic.w → L s.ic.w ≠ []) :
    Ens (s.closestXYPath target) fun r => r.2 = true → Fr A s.p.g r.1.p.g ∧ Rest s r.1 ∧ ∃ a b, r.1.ic = { s.ic with px := a, py := b } := by
  unfold closestXYPath
  refine Ens.ite (fun _ => Ens.some fun h => by cases h) fun ht => ?_
  have ht : target = s.ic.r ∨ target = s.ic.w := by
    by_contra hh
    rw [not_or] at hh
    exact ht hh
  have hx : L target ≠ [] := by
    rcases ht with h | h
    · rw [h]; exact hr
    · have := hw h; rwa [h]
  refine Ens.bind (hideInternalEdges_spec k hx) fun g1 h1 => ?_
  obtain ⟨⟨L2, k2, hx2⟩, l, hl, hst⟩ := h1
  have hj : ∀ e, e ∈ L2 target → Ens (do
      let s' ← xyLoop (decide (target = s.ic.r)) (if decide (target = s.ic.r) = true then s.ic.w else s.ic.r) g1.stack.length (2 * g1.eSize + 2)
        ((s.setIC { s.ic with px := 0, py := 0 }).setG g1) target e
      let g ← cutStack s'.p.g g1.stack.length
      let (g, r) ← restoreHidden g.stack.length g s.p.g.stack.length
      let s := s'.setG g
      if r ≠ .ok then return (s, false)
      else return (if s.ic.py = 0 then s.setIC { s.ic with px := 0 } else s, true)) fun r => r.2 = true →
        Fr A s.p.g r.1.p.g ∧ Rest s r.1 ∧ ∃ a b, r.1.ic = { s.ic with px := a, py := b } := by
    intro e he
    refine Ens.bind (xyLoop_spec (A := A) (base := g1.stack) _ ((s.setIC { s.ic with px := 0, py := 0 }).setG g1) _ e k2 ⟨[], rfl, rfl⟩ ⟨target, he⟩)
      fun s1 hk => ?_
    have hf : Fr A g1 s1.p.g := hk.fr
    obtain ⟨w, e1, _⟩ := hk.stack
    obtain ⟨a, b, hic⟩ := hk.ic
    have hcut : cutStack s1.p.g g1.stack.length = some { s1.p.g with stack := g1.stack } := by
      unfold cutStack
      rw [if_pos (by rw [e1]; simp), e1]
      simp
    rw [hcut]
    show Ens (restoreHidden _ { s1.p.g with stack := g1.stack } _ >>= _) _
    refine Ens.bind (restoreHidden_spec (g0 := s.p.g) (base := s.p.g.stack) l _ _ ?_ hst) fun ⟨g2, r⟩ h2 => ?_
    · exact hl.congr hf.strip
    refine Ens.ite (fun _ => Ens.pure fun h => by cases h) fun hr => Ens.pure fun _ => ?_
    obtain ⟨h3, h4, h5⟩ := h2 (by simpa using hr)
    have hF : Fr A s.p.g g2 := by
      refine ⟨h3, fun hb e he => ?_⟩
      have c1 := hb e he
      have c2 := h4 e
      have c3 := (k2.fr hf).blank e he
      have c4 : (g2.E e).flags = 0 := by
        have c2 : (g2.E e).flags = (s1.p.g.E e).flags := c2
        rw [c2, c3]
      have c5 := strip_elink h3 e false
      have c6 := strip_elink h3 e true
      have c7 := strip_nbr h3 e
      simp only [c1] at c5 c6 c7
      cases hh : g2.E e
      rw [hh] at c4 c5 c6 c7
      simp [ERec.link] at c4 c5 c6 c7
      simp [c4, c5, c6, c7]
    have hR : Rest s (s1.setG g2) := Rest.trans (s' := s1) (Rest.trans (s' := (s.setIC { s.ic with px := 0, py := 0 }).setG g1)
      ⟨rfl, rfl, rfl, rfl⟩ hk.rest) ⟨rfl, rfl, rfl, rfl⟩
    by_cases hpy : (s1.setG g2).ic.py = 0
    · rw [if_pos hpy]
      refine ⟨hF, Rest.trans (s' := s1.setG g2) hR ⟨rfl, rfl, rfl, rfl⟩, 0, b, ?_⟩
      show { s1.ic with px := 0 } = _
      rw [hic]; rfl
    · rw [if_neg hpy]
      exact ⟨hF, hR, a, b, by show s1.ic = _; rw [hic]; rfl⟩
  have hfirst : ∀ b, Ens (g1.getArc target b) fun e => e ∈ L2 target := fun b => (k2.first target b).mono fun e he => by
    rcases he with ⟨h, _⟩ | ⟨_, h⟩
    · exact absurd h hx2
    · exact h
  refine Ens.ite (fun h => ?_) fun h => ?_
  · have h' : target = s.ic.r := of_decide_eq_true h
    refine Ens.bind (P := fun e => e ∈ L2 target) ?_ hj
    rw [h'] at hfirst ⊢
    exact hfirst true
  · have h' : ¬ target = s.ic.r := fun hh => h (decide_eq_true (p := target = s.ic.r) hh)
    have h' := ht.resolve_left h'
    refine Ens.bind (P := fun e => e ∈ L2 target) ?_ hj
    rw [h'] at hfirst ⊢
    exact hfirst false

end Verif.Isolate
