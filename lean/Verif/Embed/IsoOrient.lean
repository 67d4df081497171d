import Verif.Embed.IsoMark

/-
Orienting the vertices of the blocked component like its root.
-/
namespace Verif.Isolate
open Verif Verif.Embed Verif.Graph Verif.EGraph Verif.Random Verif.Test Function

variable {B : Base} {s s' : EGraph} {G : Gh B.D} {L fw : Nat → List Nat} {v c R : Nat} {b0 : Bool} {dn todo : List Nat}

theorem pushKidsKeep_spec (flag : Nat) : ∀ (fuel : Nat) (T : List Nat) (g : Graph), ArcRun g T → Ens (pushKidsKeep flag fuel g (T.headD 0)) fun g' =>
    g' = { g with stack := (T.filter (isTree g)).reverse.flatMap (fun e => [flag ^^^ ((g.E e).flags &&& 16), (g.E e).nbr]) ++ g.stack }
  | 0, T, g, h => by
    unfold pushKidsKeep
    refine Ens.ite (fun h0 => Ens.some ?_) fun _ => Ens.none
    cases T with
    | nil => rfl
    | cons e T => exact absurd h0 h.1.1
  | fuel + 1, T, g, h => by
    unfold pushKidsKeep
    refine Ens.ite (fun h0 => Ens.some ?_) fun h0 => ?_
    · cases T with
      | nil => rfl
      | cons e T => exact absurd h0 h.1.1
    · cases T with
      | nil => exact absurd rfl h0
      | cons e T =>
        show Ens (g.getType e >>= fun t => _) _
        have ht : Ens (g.getType e) fun t => t = (g.E e).flags &&& 14 := by
          unfold getType; exact Ens.bind (rdE_val e) fun r hr => Ens.pure (by rw [hr])
        refine Ens.bind ht fun t ht => ?_
        refine Ens.ite (fun h14 => ?_) fun h14 => ?_
        · have htr : isTree g e = true := by unfold isTree; simp [← ht, h14]
          have hi : Ens (getInverted g e) fun i => i = (g.E e).flags &&& 16 := by
            unfold getInverted; exact Ens.bind (rdE_val e) fun r hr => Ens.pure (by rw [hr])
          refine Ens.bind (getNbr_val e) fun w hw => Ens.bind hi fun i hi => ?_
          refine Ens.bind (P := fun g2 => g2 = { g with stack := (flag ^^^ i) :: w :: g.stack }) (fun g2 h2 => push2_some h2) fun g2 h2 => ?_
          refine Ens.bind (getAdj_val e false) fun n hn => ?_
          have hn2 : n = T.headD 0 := by rw [hn, h2]; exact h.1.2
          clear hn
          subst h2 hn2
          refine (pushKidsKeep_spec flag fuel T { g with stack := (flag ^^^ i) :: w :: g.stack } (h.2.congr fun _ _ => rfl)).mono fun g3 h3 => ?_
          rw [h3]
          have : List.filter (isTree { g with stack := (flag ^^^ i) :: w :: g.stack }) T = List.filter (isTree g) T := rfl
          rw [this, List.filter_cons_of_pos htr, hi, hw]
          simp
        · have htr : ¬ isTree g e = true := by unfold isTree; simp [← ht, h14]
          refine Ens.bind (P := fun x => g = x) (Ens.some rfl) fun g2 h2 => ?_
          subst h2
          refine Ens.bind (getAdj_val e false) fun n hn => ?_
          have hn : n = T.headD 0 := by rw [hn]; exact h.1.2
          subst hn
          refine (pushKidsKeep_spec flag fuel T _ h.2).mono fun g3 h3 => ?_
          rw [h3, List.filter_cons_of_neg htr]

/-- The lists with the vertices of `dn` oriented like the root. -/
def facing (G : Gh B.D) (b0 : Bool) (dn : List Nat) (x : Nat) : List Nat := if x ∈ dn ∧ (G.o x != b0) = true then (raw G x).reverse else raw G x

theorem mem_facing {x e : Nat} : e ∈ facing G b0 dn x ↔ e ∈ raw G x := by
  unfold facing; split
  · exact List.mem_reverse
  · rfl

/-- Vertices waiting on the stack and vertices done. -/
structure Agenda (G : Gh B.D) (R : Nat) (todo dn : List Nat) : Prop where
  nodup : (todo ++ dn).Nodup
  root : R ∈ todo ++ dn
  up : ∀ x ∈ todo ++ dn, x = R ∨ (B.Child x ∧ holder G x ∈ dn)
  closed : ∀ k, B.Child k → holder G k ∈ dn → k ∈ todo ++ dn

/-- The state while vertices are oriented. -/
structure Turn (B : Base) (G : Gh B.D) (fw : Nat → List Nat) (v : Nat) (s0 : EGraph) (b0 : Bool) (st0 todo dn : List Nat) (s : EGraph) : Prop where
  part : Part B s (facing G b0 dn) fw
  info : Info B s v
  flags : ∀ e, (s.p.g.E e).flags = (s0.p.g.E e).flags
  nbr : ∀ e, (s.p.g.E e).nbr = (s0.p.g.E e).nbr
  vi : s.p.VI = s0.p.VI
  roots : s.roots = s0.roots
  ic : s.ic = s0.ic
  stack : s.p.g.stack = (todo.flatMap fun w => [fl (G.o w != b0), w]) ++ st0

/-- What turning a component needs to know of the state at its start. -/
structure Rep0 (B : Base) (s : EGraph) (G : Gh B.D) : Prop where
  links : Links s.p.g (raw G)
  owner : ∀ x e, e ∈ raw G x → (s.p.g.E (twin e)).nbr = x
  typ : ∀ e, B.A e → ((s.p.g.E e).flags &&& 14 = 14 ↔ ∃ c, B.Child c ∧ e = B.ta c)
  hold : ∀ c, B.Child c → B.ta c ∈ raw G (holder G c)
  foot : ∀ c, B.Child c → twin (B.ta c) ∈ raw G c
  sign : ∀ c, B.Child c → (s.p.g.E (B.ta c)).flags.testBit 4 = (G.o c != G.o (holder G c))

/-- Marks do not matter. -/
theorem Rep0.clear {s s' : EGraph} (r : Rep B s G) (f : Fr B.A s.p.g s'.p.g) (hfl : ∀ e, B.A e → (s'.p.g.E e).flags ||| 1 = (s.p.g.E e).flags ||| 1) : Rep0 B s' G := by
  refine ⟨r.links.congr (strip_N f.strip) (strip_arcCap f.strip) (strip_elink f.strip) (strip_vlink f.strip), ?_, ?_, r.hold, r.foot, ?_⟩
  · intro x e he; rw [strip_nbr f.strip]; exact r.owner x e he
  · intro e he
    rw [← type_or_one, hfl e he, type_or_one]; exact r.typ e he
  · intro c hc
    rw [← r.sign c hc]
    have h := congrArg (fun n => n.testBit 4) (hfl _ (mem_raw.1 (r.hold c hc)).1)
    simpa [Nat.testBit_or, show Nat.testBit 1 4 = false by decide] using h

variable {s0 : EGraph} {st0 : List Nat}

theorem turnOne (hB : NoLoop B) (r : Rep0 B s0 G) (hR : ∀ c, B.Child c → c ≠ R) {W : Nat} (h : Turn B G fw v s0 b0 st0 todo dn s) (ha : Agenda G R (W :: todo) dn) :
    Ens (if fl (G.o W != b0) ≠ 0 then s.invertVertex W else some s) fun s1 => Ens (s1.p.g.getArc W false >>= fun a => pushKidsKeep (fl (G.o W != b0)) s1.p.g.eSize s1.p.g a) fun g =>
      ∃ todo', Agenda G R todo' (W :: dn) ∧ Turn B G fw v s0 b0 st0 todo' (W :: dn) (s1.setG g) := by
  have hWd : W ∉ dn := by
    have := ha.nodup
    rw [List.cons_append, List.nodup_cons] at this
    exact fun hh => this.1 (by simp [hh])
  have hstep : Ens (if fl (G.o W != b0) ≠ 0 then s.invertVertex W else some s) (Turn B G fw v s0 b0 st0 todo (W :: dn)) := by
    refine Ens.ite (fun h0 => ?_) fun h0 => Ens.some ?_
    · have ho : (G.o W != b0) = true := by
        cases hh : (G.o W != b0) with
        | true => rfl
        | false => rw [hh] at h0; exact absurd rfl h0
      refine (h.part.invert hB h.info W).mono fun s1 ⟨P1, I1, F⟩ => ?_
      have hL : update (facing G b0 dn) W (facing G b0 dn W).reverse = facing G b0 (W :: dn) := by
        funext x
        by_cases hx : x = W
        · subst hx
          rw [update_self]
          unfold facing
          rw [if_neg fun hh => hWd hh.1, if_pos ⟨List.mem_cons_self, ho⟩]
        · rw [update_of_ne hx]
          unfold facing
          simp [hx]
      rw [hL] at P1
      exact ⟨P1, I1, fun e => (F.flags e).trans (h.flags e), fun e => (F.nbr e).trans (h.nbr e), F.vi.trans h.vi, F.roots.trans h.roots, F.ic.trans h.ic, F.stack.trans h.stack⟩
    · have ho : (G.o W != b0) = false := by
        cases hh : (G.o W != b0) with
        | false => rfl
        | true => rw [hh] at h0; exact absurd (show fl true ≠ 0 by decide) h0
      have hL : facing G b0 dn = facing G b0 (W :: dn) := by
        funext x
        unfold facing
        by_cases hx : x = W
        · subst hx; rw [ho]; simp
        · simp [hx]
      exact ⟨hL ▸ h.part, h.info, h.flags, h.nbr, h.vi, h.roots, h.ic, h.stack⟩
  refine hstep.mono fun s1 h1 => ?_
  refine Ens.bind (getArc_val W false) fun a hA => ?_
  have P1 := h1.part
  obtain ⟨T, hT⟩ : ∃ T, facing G b0 (W :: dn) W = T := ⟨_, rfl⟩
  have hL : a = T.headD 0 := by
    rw [hA.2, P1.lk.links.vlink W false hA.1, ← hT]; rfl
  rw [hL]
  refine (pushKidsKeep_spec (fl (G.o W != b0)) _ T _ (run_of_links P1.lk.links (v := W) T [] hT)).mono fun g hg => ?_
  have hmT : ∀ e, e ∈ T ↔ e ∈ raw G W := fun e => by rw [← hT]; exact mem_facing
  have hkid : ∀ e ∈ (T.filter (isTree s1.p.g)).reverse, ∃ k, B.Child k ∧ e = B.ta k ∧ (s1.p.g.E e).nbr = k ∧ holder G k = W ∧
      fl (G.o W != b0) ^^^ ((s1.p.g.E e).flags &&& 16) = fl (G.o k != b0) := by
    intro e he
    rw [List.mem_reverse, List.mem_filter] at he
    obtain ⟨he1, he2⟩ := he
    have hraw := (hmT e).1 he1
    have hAe := (mem_raw.1 hraw).1
    unfold isTree at he2
    rw [h1.flags, decide_eq_true_eq] at he2
    obtain ⟨k, hk, rfl⟩ := (r.typ e hAe).1 he2
    have hh : holder G k = W := r.links.disj _ _ _ (r.hold k hk) hraw
    refine ⟨k, hk, rfl, ?_, hh, ?_⟩
    · rw [h1.nbr]
      have := r.owner k _ (r.foot k hk)
      rwa [twin_twin] at this
    · refine fl_sign _ _ _ ?_
      rw [h1.flags, r.sign k hk, hh]
      cases G.o k <;> cases G.o W <;> cases b0 <;> rfl
  have hflat : ∀ l : List Nat, (∀ e ∈ l, ∃ k, B.Child k ∧ e = B.ta k ∧ (s1.p.g.E e).nbr = k ∧ holder G k = W ∧
      fl (G.o W != b0) ^^^ ((s1.p.g.E e).flags &&& 16) = fl (G.o k != b0)) →
      l.flatMap (fun e => [fl (G.o W != b0) ^^^ ((s1.p.g.E e).flags &&& 16), (s1.p.g.E e).nbr]) = (l.map fun e => (s1.p.g.E e).nbr).flatMap fun w => [fl (G.o w != b0), w] := by
    intro l
    induction l with
    | nil => intro _; rfl
    | cons e l ih =>
      intro hl
      obtain ⟨k, _, _, h3, _, h4⟩ := hl e List.mem_cons_self
      rw [List.flatMap_cons, List.map_cons, List.flatMap_cons, ih fun e he => hl e (List.mem_cons_of_mem _ he), h4, h3]
  generalize hK : (T.filter (isTree s1.p.g)).reverse = K at hkid hg
  have hmem : ∀ k, k ∈ (K.map fun e => (s1.p.g.E e).nbr) ↔ B.Child k ∧ holder G k = W := by
    intro k
    constructor
    · intro hk
      obtain ⟨e, he, rfl⟩ := List.mem_map.1 hk
      obtain ⟨k', h2, _, h3, h4, _⟩ := hkid e he
      rw [h3]; exact ⟨h2, h4⟩
    · rintro ⟨hk, hh⟩
      refine List.mem_map.2 ⟨B.ta k, ?_, ?_⟩
      · rw [← hK, List.mem_reverse, List.mem_filter]
        have hraw : B.ta k ∈ raw G W := hh ▸ r.hold k hk
        refine ⟨(hmT _).2 hraw, ?_⟩
        unfold isTree
        rw [h1.flags, decide_eq_true_eq]
        exact (r.typ _ (mem_raw.1 hraw).1).2 ⟨k, hk, rfl⟩
      · rw [h1.nbr]
        have := r.owner k _ (r.foot k hk)
        rwa [twin_twin] at this
  have hKnd : (K.map fun e => (s1.p.g.E e).nbr).Nodup := by
    have hTn : T.Nodup := by rw [← hT]; exact P1.lk.links.nodup W
    have hKn : K.Nodup := by rw [← hK]; exact List.nodup_reverse.2 (hTn.filter _)
    refine List.Nodup.map_on ?_ hKn
    intro e he e' he' hee
    obtain ⟨k, _, h2, h3, _⟩ := hkid e he
    obtain ⟨k', _, h2', h3', _⟩ := hkid e' he'
    rw [h3, h3'] at hee
    rw [h2, h2', hee]
  refine ⟨(K.map fun e => (s1.p.g.E e).nbr) ++ todo, ⟨?_, ?_, ?_, ?_⟩, ?_⟩
  · have hnd := ha.nodup
    have hnd2 : (todo ++ W :: dn).Nodup := by
      refine (List.Perm.nodup_iff ?_).1 hnd
      rw [List.cons_append]; exact List.perm_middle.symm
    rw [List.append_assoc, List.nodup_append]
    refine ⟨hKnd, hnd2, ?_⟩
    intro k hk y hy hky
    subst hky
    obtain ⟨hck, hhk⟩ := (hmem k).1 hk
    have hk' : k ∈ W :: todo ++ dn := by
      simp only [List.mem_append, List.mem_cons] at hy ⊢; tauto
    rcases ha.up k hk' with h2 | ⟨_, h2⟩
    · exact hR k hck h2
    · rw [hhk] at h2; exact hWd h2
  · have := ha.root
    simp only [List.mem_append, List.mem_cons] at this ⊢; tauto
  · intro x hx
    by_cases hxK : x ∈ (K.map fun e => (s1.p.g.E e).nbr)
    · obtain ⟨h2, h3⟩ := (hmem x).1 hxK
      exact .inr ⟨h2, by rw [h3]; simp⟩
    · have hx' : x ∈ W :: todo ++ dn := by
        simp only [List.mem_append, List.mem_cons] at hx ⊢; tauto
      rcases ha.up x hx' with h2 | ⟨h2, h3⟩
      · exact .inl h2
      · exact .inr ⟨h2, by simp [h3]⟩
  · intro k hk hh
    rcases List.mem_cons.1 hh with h2 | h2
    · have := (hmem k).2 ⟨hk, h2⟩
      simp only [List.mem_append]; exact .inl (.inl this)
    · have := ha.closed k hk h2
      simp only [List.mem_append, List.mem_cons] at this ⊢; tauto
  · have m : Mv B.A s1 (s1.setG g) := Mv.setG s1 (by rw [hg]; exact fr_stack _ _)
    refine ⟨P1.mv m, h1.info.mv m, ?_, ?_, h1.vi, h1.roots, h1.ic, ?_⟩
    · intro e; show (g.E e).flags = _; rw [hg]; exact h1.flags e
    · intro e; show (g.E e).nbr = _; rw [hg]; exact h1.nbr e
    · show g.stack = _
      rw [hg]
      show K.flatMap _ ++ s1.p.g.stack = _
      rw [hflat K hkid, List.flatMap_append, h1.stack, List.append_assoc]

theorem turnLoop (hB : NoLoop B) (r : Rep0 B s0 G) (hR : ∀ c, B.Child c → c ≠ R) : ∀ (fuel : Nat) (s : EGraph) (todo dn : List Nat),
    Turn B G fw v s0 b0 st0 todo dn s → Agenda G R todo dn → Ens (orientKeepLoop st0.length fuel s) fun s' => ∃ dn', Agenda G R [] dn' ∧ Turn B G fw v s0 b0 st0 [] dn' s'
  | fuel, s, todo, dn, h, ha => by
    have hlen : s.p.g.stack.length = 2 * todo.length + st0.length := by
      rw [h.stack, List.length_append]
      have : ∀ l : List Nat, (l.flatMap fun w => [fl (G.o w != b0), w]).length = 2 * l.length := by
        intro l
        induction l with
        | nil => rfl
        | cons a l ih => rw [List.flatMap_cons, List.length_append, ih, List.length_cons]; simp; omega
      rw [this]
    have hend : s.p.g.stack.length ≤ st0.length → ∃ dn', Agenda G R [] dn' ∧ Turn B G fw v s0 b0 st0 [] dn' s := by
      intro hl
      have : todo = [] := List.length_eq_zero_iff.1 (by omega)
      subst this
      exact ⟨dn, ha, h⟩
    cases fuel with
    | zero => unfold orientKeepLoop; exact Ens.ite (fun hl => Ens.some (hend hl)) fun _ => Ens.none
    | succ fuel =>
      unfold orientKeepLoop
      refine Ens.ite (fun hl => Ens.some (hend hl)) fun hl => ?_
      cases todo with
      | nil => simp at hlen; omega
      | cons W todo =>
        have hst : s.p.g.stack = fl (G.o W != b0) :: W :: ((todo.flatMap fun w => [fl (G.o w != b0), w]) ++ st0) := by rw [h.stack]; rfl
        have hp1 : s.p.g.pop = some (fl (G.o W != b0), { s.p.g with stack := W :: ((todo.flatMap fun w => [fl (G.o w != b0), w]) ++ st0) }) := by
          unfold pop; rw [hst]
        rw [hp1]
        refine Ens.bind (P := fun x => x = _) (Ens.some rfl) fun ⟨flag, g1⟩ h1 => ?_
        obtain ⟨rfl, rfl⟩ := Prod.mk.inj h1
        refine Ens.bind (P := fun x => x = (W, { s.p.g with stack := (todo.flatMap fun w => [fl (G.o w != b0), w]) ++ st0 })) (Ens.some rfl) fun ⟨W', g2⟩ h2 => ?_
        obtain ⟨rfl, rfl⟩ := Prod.mk.inj h2
        dsimp only
        generalize hs2 : s.setG { s.p.g with stack := (todo.flatMap fun w => [fl (G.o w != b0), w]) ++ st0 } = s2
        have m : Mv B.A s s2 := by rw [← hs2]; exact Mv.setG s (fr_stack _ _)
        have ht2 : Turn B G fw v s0 b0 st0 todo dn s2 := by
          refine ⟨h.part.mv m, h.info.mv m, ?_, ?_, ?_, ?_, ?_, ?_⟩ <;> rw [← hs2]
          · exact h.flags
          · exact h.nbr
          · exact h.vi
          · exact h.roots
          · exact h.ic
          · rfl
        have key := turnOne hB r hR ht2 ha
        have rest : ∀ s3 : EGraph, (Ens (s3.p.g.getArc W' false >>= fun a => pushKidsKeep (fl (G.o W' != b0)) s3.p.g.eSize s3.p.g a) fun g =>
            ∃ todo', Agenda G R todo' (W' :: dn) ∧ Turn B G fw v s0 b0 st0 todo' (W' :: dn) (s3.setG g)) →
            Ens (s3.p.g.getArc W' false >>= fun a => pushKidsKeep (fl (G.o W' != b0)) s3.p.g.eSize s3.p.g a >>= fun g => orientKeepLoop st0.length fuel (s3.setG g))
              fun s' => ∃ dn', Agenda G R [] dn' ∧ Turn B G fw v s0 b0 st0 [] dn' s' := by
          intro s3 h3
          refine Ens.skip fun a ha' => Ens.skip fun g hg => ?_
          obtain ⟨todo', h4, h5⟩ := h3 g (by rw [ha']; exact hg)
          exact turnLoop hB r hR fuel _ todo' (W' :: dn) h5 h4
        refine Ens.ite (fun hc => ?_) fun hc => ?_
        · rw [if_pos hc] at key
          exact Ens.bind key fun s3 h3 => rest s3 h3
        · rw [if_neg hc] at key
          exact Ens.bind key fun s3 h3 => rest s3 h3

end Verif.Isolate
