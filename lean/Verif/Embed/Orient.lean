import Verif.Embed.Step

/-
_OrientVerticesInEmbedding makes the lists of all vertices agree with the ideal state.
-/
namespace Verif.Embed
open Verif Verif.Graph Verif.EGraph Equiv Equiv.Perm Verif.Map Function
open Verif.Props (AncEq)

variable {B : Base} {G : Gh B.D} {s : EGraph}

/-- The components can be reflected such that the roots are stored as they are. -/
theorem normal (r : Rep B s G) (h : Good B.N B.par B.α G) : ∀ k, k ≤ B.N →
    ∃ G' : Gh B.D, Rep B s G' ∧ Good B.N B.par B.α G' ∧ (∀ x d, d ∈ G'.L x ↔ d ∈ G.L x) ∧
      G'.cp = G.cp ∧ (∀ c x, x ∈ G'.X c ↔ x ∈ G.X c) ∧ ∀ c, 1 ≤ c → c ≤ k → (G'.Live B.N c → G'.o (c + B.N) = false) ∧ (B.par c = 0 → G'.o c = false) := by
  intro k
  induction k with
  | zero => exact fun _ => ⟨G, r, h, fun _ _ => Iff.rfl, rfl, fun _ _ => Iff.rfl, fun c h1 h2 => by omega⟩
  | succ k ih =>
    intro hk
    obtain ⟨G1, r1, h1, hm, hcp, hx, ho⟩ := ih (by omega)
    by_cases hq : (G1.Live B.N (k + 1) ∧ G1.o (k + 1 + B.N) = true) ∨ (B.par (k + 1) = 0 ∧ G1.o (k + 1) = true)
    · refine ⟨G1.reflect (k + 1), r1.reflect h1 _, h1.reflect B.α_α, fun x d => reflect_mem.trans (hm x d), hcp,
        fun c x => reflect_X_mem.trans (hx c x), ?_⟩
      have ho' : ∀ x, (G1.reflect (k + 1)).o x = if G1.cp x = k + 1 then !G1.o x else G1.o x := fun _ => rfl
      intro c hc1 hc2
      rw [reflect_live, ho', ho']
      by_cases hck : c = k + 1
      · subst hck
        constructor
        · intro hl
          have hr := h1.root _ hl
          rw [if_pos hr.2.2]
          rcases hq with ⟨_, e⟩ | ⟨e, _⟩
          · rw [e]; rfl
          · exact absurd e hr.2.1
        · intro hp
          rw [if_pos (h1.top _ hc1 hk hp)]
          rcases hq with ⟨e, _⟩ | ⟨_, e⟩
          · exact absurd hp (h1.root _ e).2.1
          · rw [e]; rfl
      · have := ho c hc1 (by omega)
        constructor
        · intro hl; rw [if_neg (by rw [(h1.root c hl).2.2]; exact hck)]; exact this.1 hl
        · intro hp; rw [if_neg (by rw [h1.top c hc1 (by omega) hp]; exact hck)]; exact this.2 hp
    · refine ⟨G1, r1, h1, hm, hcp, hx, ?_⟩
      intro c hc1 hc2
      by_cases hck : c = k + 1
      · subst hck
        refine ⟨fun hl => ?_, fun hp => ?_⟩
        · rw [← Bool.not_eq_true]; exact fun e => hq (.inl ⟨hl, e⟩)
        · rw [← Bool.not_eq_true]; exact fun e => hq (.inr ⟨hp, e⟩)
      · exact ho c hc1 (by omega)

/-- The arcs of the list follow each other. -/
def ArcRun (g : Graph) : List Nat → Prop
  | [] => True
  | e :: T => (e ≠ 0 ∧ (g.E e).link false = T.headD 0) ∧ ArcRun g T

theorem ArcRun.congr {g g' : Graph} : ∀ {T : List Nat}, ArcRun g T → (∀ e ∈ T, (g'.E e).link false = (g.E e).link false) → ArcRun g' T
  | [], _, _ => trivial
  | e :: T, h, hl => ⟨⟨h.1.1, by rw [hl e (by simp)]; exact h.1.2⟩, ArcRun.congr h.2 fun a ha => hl a (by simp [ha])⟩

theorem run_of_links {g : Graph} {rot : Nat → List Nat} (h : Links g rot) {v : Nat} :
    ∀ (T A : List Nat), rot v = A ++ T → ArcRun g T := by
  intro T
  induction T with
  | nil => intro A _; trivial
  | cons e T ih =>
    intro A hA
    have he : e ∈ rot v := by rw [hA]; simp
    refine ⟨⟨?_, ?_⟩, ih (A ++ [e]) (by rw [hA]; simp)⟩
    · have := (h.arc v e he).1; omega
    · rw [h.elink v false e he, dir_false, hA]
      have hn := h.nodup v
      rw [hA, List.nodup_append] at hn
      rw [nextIn_append_right (fun hh => hn.2.2 e hh e (by simp) rfl), nextIn_cons_self]

/-- The inverted flag off. -/
def cleared (f : Nat) : Nat := f &&& (2 ^ 32 - 1 - 16)

theorem cleared_type (f : Nat) : cleared f &&& 14 = f &&& 14 := by
  unfold cleared
  rw [Nat.and_assoc]; rfl

theorem cleared_bit (f : Nat) : (cleared f).testBit 4 = false := by
  unfold cleared
  rw [Nat.testBit_and]
  have : (2 ^ 32 - 1 - 16 : Nat).testBit 4 = false := by decide
  rw [this, Bool.and_false]

/-- A tree arc to a child. -/
def isTree (g : Graph) (e : Nat) : Bool := (g.E e).flags &&& 14 = 14

theorem pushKids_spec (flag : Nat) : ∀ (fuel : Nat) (T : List Nat) (g g' : Graph), ArcRun g T → T.Nodup →
    pushKids flag fuel g (T.headD 0) = some g' →
    g' = { g with
      stack := (T.filter (isTree g)).reverse.flatMap (fun e => [flag ^^^ ((g.E e).flags &&& 16), (g.E e).nbr]) ++ g.stack
      E := fun e => if e ∈ T ∧ isTree g e = true then { g.E e with flags := cleared (g.E e).flags } else g.E e } := by
  intro fuel
  induction fuel with
  | zero =>
    intro T g g' hp _ he
    cases T with
    | nil =>
      obtain rfl := Option.some.inj he
      simp
    | cons e T =>
      unfold pushKids at he
      rw [if_neg (show ¬ List.headD (e :: T) 0 = 0 from hp.1.1)] at he; cases he
  | succ fuel ih =>
    intro T g g' hp hn he
    cases T with
    | nil =>
      obtain rfl := Option.some.inj he
      simp
    | cons e T =>
      rw [List.nodup_cons] at hn
      unfold pushKids at he
      have h0 : ¬ (List.headD (e :: T) 0 = 0) := hp.1.1
      rw [if_neg h0] at he
      simp only [Option.bind_eq_bind] at he
      rw [Option.bind_eq_some_iff] at he
      obtain ⟨t, ht, he⟩ := he
      unfold getType rdE at ht
      have hlt : e < g.eSize := by
        by_contra hh
        rw [if_neg (show ¬ List.headD (e :: T) 0 < g.eSize from hh)] at ht; cases ht
      rw [if_pos (show List.headD (e :: T) 0 < g.eSize from hlt)] at ht
      have ht : t = (g.E e).flags &&& 14 := (Option.some.inj ht).symm
      have he : ((if t = 14 then (g.getNbr e).bind fun w => (getInverted g e).bind fun i =>
          (g.push2 w (flag ^^^ i)).bind fun g => clearInverted g e else some g).bind fun g =>
          (g.getAdj e false).bind fun n => pushKids flag fuel g n) = some g' := by
        rw [← he]
        by_cases h14 : t = 14
        · simp only [if_pos h14, List.headD_cons, Option.bind_assoc]
        · simp only [if_neg h14, List.headD_cons]
      rw [Option.bind_eq_some_iff] at he
      obtain ⟨g1, h1, he⟩ := he
      rw [Option.bind_eq_some_iff] at he
      obtain ⟨n, hn1, he⟩ := he
      by_cases h14 : t = 14
      · have htree : isTree g e = true := by unfold isTree; simp [← ht, h14]
        rw [if_pos h14] at h1
        rw [Option.bind_eq_some_iff] at h1
        obtain ⟨w, hw, h1⟩ := h1
        have hw : w = (g.E e).nbr := by
          have := getNbr_eq hlt
          rw [this] at hw
          exact (Option.some.inj hw).symm
        rw [Option.bind_eq_some_iff] at h1
        obtain ⟨i, hi, h1⟩ := h1
        have hi : i = (g.E e).flags &&& 16 := by
          unfold getInverted rdE at hi
          rw [if_pos hlt] at hi
          exact (Option.some.inj hi).symm
        rw [Option.bind_eq_some_iff] at h1
        obtain ⟨g2, h2, h1⟩ := h1
        have h2 := push2_some h2
        have h1 : g1 = { g2 with E := update g2.E e { g2.E e with flags := cleared (g2.E e).flags } } := by
          unfold clearInverted rdE wrE at h1
          have hlt2 : e < g2.eSize := by rw [h2]; exact hlt
          rw [if_pos hlt2] at h1
          simp only [Option.bind_eq_bind, Option.bind_some] at h1
          rw [if_pos hlt2] at h1
          exact (Option.some.inj h1).symm
        have hE1 : ∀ a, g1.E a = if a = e then { g.E e with flags := cleared (g.E e).flags } else g.E a := by
          intro a; rw [h1, h2]
          show update g.E e _ a = _
          rw [update_apply]
        have hlk : ∀ a, (g1.E a).link false = (g.E a).link false := by
          intro a; rw [hE1]
          split
          · next q => rw [q]; rfl
          · rfl
        have hn2 : n = T.headD 0 := by
          have hs : e < g1.eSize := by rw [h1, h2]; exact hlt
          have := getAdj_eq hs false
          rw [this] at hn1
          rw [← Option.some.inj hn1, hlk]; exact hp.1.2
        rw [hn2] at he
        have hres := ih T g1 g' (hp.2.congr fun a _ => hlk a) hn.2 he
        have hcong : ∀ a ∈ T, g1.E a = g.E a := by
          intro a ha; rw [hE1, if_neg]; rintro rfl; exact hn.1 ha
        have htc : ∀ a ∈ T, isTree g1 a = isTree g a := by
          intro a ha; unfold isTree; rw [hcong a ha]
        have hfil : T.filter (isTree g1) = T.filter (isTree g) := List.filter_congr htc
        have hfm : (T.filter (isTree g)).reverse.flatMap (fun e => [flag ^^^ ((g1.E e).flags &&& 16), (g1.E e).nbr]) =
            (T.filter (isTree g)).reverse.flatMap (fun e => [flag ^^^ ((g.E e).flags &&& 16), (g.E e).nbr]) := by
          rw [List.flatMap_def, List.flatMap_def]
          congr 1
          refine List.map_congr_left fun a ha => ?_
          rw [hcong a (List.mem_of_mem_filter (List.mem_reverse.1 ha))]
        rw [hfil, hfm] at hres
        have hst : g1.stack = (flag ^^^ ((g.E e).flags &&& 16)) :: (g.E e).nbr :: g.stack := by
          rw [h1, h2, hw, hi]
        rw [hres]
        have key : (fun a => if a ∈ T ∧ isTree g1 a = true then { g1.E a with flags := cleared (g1.E a).flags } else g1.E a) =
            fun a => if a ∈ e :: T ∧ isTree g a = true then { g.E a with flags := cleared (g.E a).flags } else g.E a := by
          funext a
          by_cases hae : a = e
          · subst hae
            rw [if_neg (fun hh => hn.1 hh.1), hE1, if_pos rfl, if_pos ⟨by simp, htree⟩]
          · by_cases haT : a ∈ T
            · rw [htc a haT, hcong a haT]
              by_cases hta : isTree g a = true
              · rw [if_pos ⟨haT, hta⟩, if_pos ⟨by simp [haT], hta⟩]
              · rw [if_neg (fun hh => hta hh.2), if_neg (fun hh => hta hh.2)]
            · rw [if_neg (fun hh => haT hh.1), if_neg (fun hh => haT ((List.mem_cons.1 hh.1).resolve_left hae)), hE1, if_neg hae]
        rw [key, hst, List.filter_cons_of_pos htree, List.reverse_cons, List.flatMap_append]
        rw [h1, h2]
        simp
      · have htree : ¬ isTree g e = true := by unfold isTree; simp [← ht, h14]
        rw [if_neg h14] at h1
        obtain rfl := Option.some.inj h1
        have hn2 : n = T.headD 0 := by
          have := getAdj_eq hlt false
          rw [this] at hn1
          rw [← Option.some.inj hn1]; exact hp.1.2
        rw [hn2] at he
        have hres := ih T g g' hp.2 hn.2 he
        rw [hres, List.filter_cons_of_neg htree]
        have key : (fun a => if a ∈ T ∧ isTree g a = true then { g.E a with flags := cleared (g.E a).flags } else g.E a) =
            fun a => if a ∈ e :: T ∧ isTree g a = true then { g.E a with flags := cleared (g.E a).flags } else g.E a := by
          funext a
          by_cases hae : a = e
          · subst hae
            rw [if_neg (fun hh => hn.1 hh.1), if_neg (fun hh => htree hh.2)]
          · simp [hae]
        rw [key]

theorem vertices_length {N : Nat} {L : List Nat} (hnd : L.Nodup) (hr : ∀ u ∈ L, 1 ≤ u ∧ u ≤ N) : L.length ≤ N := by
  have hsub : L ⊆ List.range' 1 N := fun u hu => by rw [List.mem_range'_1]; have := hr u hu; omega
  have hle := (hnd.subperm hsub).length_le
  rwa [List.length_range'] at hle

theorem pushKids_total (flag : Nat) : ∀ (fuel : Nat) (T : List Nat) (g : Graph), ArcRun g T → T.Nodup → (∀ e ∈ T, e < g.eSize) →
    T.length ≤ fuel → g.stack.length + 2 * (T.filter (isTree g)).length ≤ g.stackCap →
    ∃ g', pushKids flag fuel g (T.headD 0) = some g' := by
  intro fuel
  induction fuel with
  | zero =>
    intro T g _ _ _ hf _
    have : T = [] := List.length_eq_zero_iff.1 (by omega)
    subst this
    exact ⟨g, rfl⟩
  | succ fuel ih =>
    intro T g hp hn hlt hf hst
    cases T with
    | nil => exact ⟨g, rfl⟩
    | cons e T =>
      rw [List.nodup_cons] at hn
      have he : e < g.eSize := hlt e (by simp)
      rw [List.length_cons] at hf
      unfold pushKids
      rw [if_neg (show ¬ List.headD (e :: T) 0 = 0 from hp.1.1), List.headD_cons]
      have ht : g.getType e = some ((g.E e).flags &&& 14) := by unfold getType rdE; rw [if_pos he]; rfl
      simp only [Option.bind_eq_bind]
      rw [ht, Option.bind_some]
      by_cases h14 : (g.E e).flags &&& 14 = 14
      · have htree : isTree g e = true := by unfold isTree; simp [h14]
        rw [List.filter_cons_of_pos htree, List.length_cons] at hst
        have hi : getInverted g e = some ((g.E e).flags &&& 16) := by unfold getInverted rdE; rw [if_pos he]; rfl
        simp only [if_pos h14]
        rw [getNbr_eq he, Option.bind_some, hi, Option.bind_some, push2_ok _ _ (by omega), Option.bind_some]
        have hc : ∀ g2 : Graph, e < g2.eSize →
            clearInverted g2 e = some { g2 with E := update g2.E e { g2.E e with flags := cleared (g2.E e).flags } } := by
          intro g2 h2
          unfold clearInverted rdE wrE
          rw [if_pos h2]
          simp only [Option.bind_eq_bind, Option.bind_some]
          rw [if_pos h2]
          rfl
        rw [hc _ (by exact he), Option.bind_some]
        set g1 : Graph := { g with
          stack := (flag ^^^ ((g.E e).flags &&& 16)) :: (g.E e).nbr :: g.stack
          E := update g.E e { g.E e with flags := cleared (g.E e).flags } } with hg1
        have hE1 : ∀ a, g1.E a = if a = e then { g.E e with flags := cleared (g.E e).flags } else g.E a := by
          intro a
          show update g.E e _ a = _
          rw [update_apply]
        have hlk : ∀ a, (g1.E a).link false = (g.E a).link false := by
          intro a; rw [hE1]
          split
          · next q => rw [q]; rfl
          · rfl
        have hcong : ∀ a ∈ T, g1.E a = g.E a := by
          intro a ha; rw [hE1, if_neg]; rintro rfl; exact hn.1 ha
        have hfil : T.filter (isTree g1) = T.filter (isTree g) := List.filter_congr fun a ha => by unfold isTree; rw [hcong a ha]
        have ha : g1.getAdj e false = some (T.headD 0) := by
          rw [getAdj_eq (by exact he), hlk, hp.1.2]
        have := ih T g1 (hp.2.congr fun a _ => hlk a) hn.2 (fun a ha => hlt a (by simp [ha])) (by omega)
          (by rw [hfil]; show (_ :: _ :: g.stack).length + _ ≤ g.stackCap; simp only [List.length_cons]; omega)
        have hfin : (g1.getAdj e false).bind (fun n => pushKids flag fuel g1 n) = pushKids flag fuel g1 (T.headD 0) := by
          rw [ha, Option.bind_some]
        obtain ⟨g', hg'⟩ := this
        exact ⟨g', hfin.trans hg'⟩
      · have htree : ¬ isTree g e = true := by unfold isTree; simp [h14]
        rw [List.filter_cons_of_neg htree] at hst
        simp only [if_neg h14]
        rw [Option.bind_some, getAdj_eq he, Option.bind_some, hp.1.2]
        exact ih T g hp.2 hn.2 (fun a ha => hlt a (by simp [ha])) (by omega) hst

/-- The lists when the vertices in `dn` have been oriented. -/
def turned (G : Gh B.D) (dn : List Nat) (x : Nat) : List Nat := if x ∈ dn then (G.L x).map (·.1) else raw G x

theorem mem_turned {dn : List Nat} {x e : Nat} : e ∈ turned G dn x ↔ e ∈ raw G x := by
  unfold turned
  split
  · unfold raw; rw [mem_dir]
  · rfl

/-- The vertices in `dn` have been oriented. -/
structure Orient (B : Base) (G : Gh B.D) (dn : List Nat) (s : EGraph) : Prop where
  fix : Fix B.g0 s.p.g
  links : Links s.p.g (turned G dn)
  owner : ∀ x e, e ∈ raw G x → (s.p.g.E (twin e)).nbr = x
  typ : ∀ e, B.A e → ((s.p.g.E e).flags &&& 14 = 14 ↔ ∃ c, B.Child c ∧ e = B.ta c)
  hold : ∀ c, B.Child c → B.ta c ∈ raw G (holder G c)
  foot : ∀ c, B.Child c → twin (B.ta c) ∈ raw G c
  sign : ∀ c, B.Child c → (s.p.g.E (B.ta c)).flags.testBit 4 = if holder G c ∈ dn then false else (G.o c != G.o (holder G c))
  parent : ∀ x, 1 ≤ x → x ≤ B.N → (s.p.VI x).parent = B.par x
  zero : ∀ e, ¬ B.A e → s.p.g.E e = {}

theorem Rep.orient (r : Rep B s G) : Orient B G [] s := by
  refine ⟨r.fix, ?_, r.owner, r.typ, r.hold, r.foot, ?_, r.parent, r.zero⟩
  · have : turned G [] = raw G := by funext x; simp [turned]
    rw [this]; exact r.links
  · intro c hc; rw [if_neg (by simp)]; exact r.sign c hc

theorem Orient.N {dn : List Nat} (r : Orient B G dn s) : s.p.g.N = B.N := by rw [r.fix.N, B.hN]

theorem Orient.stack {dn : List Nat} (r : Orient B G dn s) (st : List Nat) : Orient B G dn (s.setG { s.p.g with stack := st }) :=
  ⟨r.fix.trans (fix_stack _ _), r.links.congr rfl rfl (fun _ _ => rfl) (fun _ _ => rfl), r.owner, r.typ, r.hold, r.foot, r.sign, r.parent, r.zero⟩

/-- The flag pushed for a vertex. -/
def fl (b : Bool) : Nat := if b then 16 else 0

theorem fl_sign (f : Nat) (a b : Bool) (h : f.testBit 4 = (b != a)) : fl a ^^^ (f &&& 16) = fl b := by
  have : f &&& 16 = fl (b != a) := by
    have := Nat.and_two_pow f 4
    rw [h] at this
    rw [show (16 : Nat) = 2 ^ 4 from rfl, this]
    cases a <;> cases b <;> rfl
  rw [this]
  cases a <;> cases b <;> rfl

/-- The vertices still to be oriented. -/
structure Todo (G : Gh B.D) (m : Nat) (todo dn : List Nat) : Prop where
  nodup : (todo ++ dn).Nodup
  rng : ∀ x ∈ todo ++ dn, 1 ≤ x ∧ x ≤ m ∧ m ≤ B.N + B.N
  up : ∀ x ∈ todo ++ dn, x ≤ B.N → B.Child x ∧ holder G x ∈ dn
  closed : ∀ c, B.Child c → holder G c ∈ dn → c ∈ todo ++ dn

/-- Orienting one vertex. -/
theorem orientOne {dn todo : List Nat} {m W : Nat} (h : Orient B G dn s)
    (hT : Todo G m (W :: todo) dn) (hm : B.N ≤ m) (hst : s.p.g.stack = todo.flatMap fun w => [fl (G.o w), w]) :
    ∃ s1 a g todo', (if fl (G.o W) ≠ 0 then s.invertVertex W else some s) = some s1 ∧ s1.p.g.getArc W false = some a ∧
      pushKids (fl (G.o W)) s1.p.g.eSize s1.p.g a = some g ∧ Todo G m todo' (W :: dn) ∧ Orient B G (W :: dn) (s1.setG g) ∧
      (g.stack = todo'.flatMap fun w => [fl (G.o w), w]) ∧ ∀ x ∈ todo, x ∈ todo' := by
  have hWm : W ∈ W :: todo ++ dn := by simp
  obtain ⟨hW1, hW2, hW3⟩ := hT.rng W hWm
  have hnd := hT.nodup
  have hWdn : W ∉ dn := by
    rw [List.cons_append, List.nodup_cons] at hnd
    exact fun hh => hnd.1 (by simp [hh])
  have hWv : W < s.p.g.vSize := by unfold Graph.vSize; rw [h.N]; omega
  -- inversion
  obtain ⟨s1, h1, q1, q2, q3, q4⟩ : ∃ s1, (if fl (G.o W) ≠ 0 then s.invertVertex W else some s) = some s1 ∧ Links s1.p.g (turned G (W :: dn)) ∧ SameBut s.p.g s1.p.g ∧ s1.p.VI = s.p.VI ∧
      (∀ e, ¬ B.A e → s1.p.g.E e = s.p.g.E e) := by
    by_cases ho : G.o W = true
    · have hf : fl (G.o W) ≠ 0 := by rw [ho]; decide
      obtain ⟨g1, e1, e2, e3, e4⟩ := invertVertex_spec h.links ⟨hW1, hWv⟩
      refine ⟨_, (if_pos hf).trans e1, ?_, e3, rfl, ?_⟩
      · have : turned G (W :: dn) = update (turned G dn) W (turned G dn W).reverse := by
          funext x
          rw [update_apply]
          unfold turned
          by_cases hx : x = W
          · subst hx
            rw [if_pos (by simp), if_pos rfl, if_neg hWdn]
            unfold raw; rw [ho]; simp
          · rw [if_neg hx]
            simp [hx]
        rw [this]; exact e2
      · intro e he
        refine e4 e fun hh => he ?_
        exact (mem_raw.1 (mem_turned.1 hh)).1
    · rw [Bool.not_eq_true] at ho
      have hf : ¬ fl (G.o W) ≠ 0 := by rw [ho]; decide
      refine ⟨s, if_neg hf, ?_, SameBut.refl _, rfl, fun _ _ => rfl⟩
      have : turned G (W :: dn) = turned G dn := by
        funext x
        unfold turned
        by_cases hx : x = W
        · subst hx
          rw [if_pos (by simp), if_neg hWdn]
          unfold raw; rw [ho]; simp
        · simp [hx]
      rw [this]; exact h.links
  have hWv1 : W < s1.p.g.vSize := by unfold Graph.vSize; rw [q2.N]; exact hWv
  have ha : s1.p.g.getArc W false = some ((turned G (W :: dn) W).headD 0) := by
    rw [getArc_eq hWv1, q1.vlink W false hWv1]
    simp [endIn]
  set T := turned G (W :: dn) W with hTd
  have hmT : ∀ e, e ∈ T ↔ e ∈ raw G W := fun e => mem_turned
  have hfl : ∀ e, (s1.p.g.E e).flags = (s.p.g.E e).flags := q2.eflags
  have hnb : ∀ e, (s1.p.g.E e).nbr = (s.p.g.E e).nbr := q2.nbr
  have htree : ∀ e, e ∈ T → (isTree s1.p.g e = true ↔ ∃ c, B.Child c ∧ holder G c = W ∧ e = B.ta c) := by
    intro e he
    obtain ⟨hA, _⟩ := mem_raw.1 ((hmT e).1 he)
    unfold isTree
    rw [decide_eq_true_iff, hfl, h.typ e hA]
    constructor
    · rintro ⟨c, hc, rfl⟩
      refine ⟨c, hc, ?_, rfl⟩
      exact h.links.disj _ _ _ (mem_turned.2 (h.hold c hc)) (mem_turned.2 ((hmT _).1 he))
    · rintro ⟨c, hc, _, e⟩; exact ⟨c, hc, e⟩
  have hnbta : ∀ c, B.Child c → (s.p.g.E (B.ta c)).nbr = c := by
    intro c hc
    have := h.owner c _ (h.foot c hc)
    rwa [twin_twin] at this
  have hholdT : ∀ c, B.Child c → holder G c = W → B.ta c ∈ T := by
    intro c hc hh; rw [hmT, ← hh]; exact h.hold c hc
  set kidsW := ((T.filter (isTree s1.p.g)).map fun e => (s.p.g.E e).nbr) with hkd
  have hmk : ∀ c, c ∈ kidsW ↔ B.Child c ∧ holder G c = W := by
    intro c
    rw [hkd, List.mem_map]
    constructor
    · rintro ⟨e, he, rfl⟩
      rw [List.mem_filter] at he
      obtain ⟨c, hc, hh, rfl⟩ := (htree e he.1).1 he.2
      rw [hnbta c hc]; exact ⟨hc, hh⟩
    · rintro ⟨hc, hh⟩
      have := hholdT c hc hh
      exact ⟨B.ta c, List.mem_filter.2 ⟨this, (htree _ this).2 ⟨c, hc, hh, rfl⟩⟩, hnbta c hc⟩
  have hTodo : Todo G m (kidsW.reverse ++ todo) (W :: dn) := by
    refine ⟨?_, ?_, ?_, ?_⟩
    · -- nodup
      have hk : kidsW.Nodup := by
        rw [hkd]
        refine List.Nodup.map_on ?_ ((q1.nodup W).filter _)
        intro e he e' he' hee
        rw [List.mem_filter] at he he'
        obtain ⟨c, hc, _, rfl⟩ := (htree e he.1).1 he.2
        obtain ⟨c', hc', _, rfl⟩ := (htree e' he'.1).1 he'.2
        rw [hnbta c hc, hnbta c' hc'] at hee
        rw [hee]
      have hp : (todo ++ W :: dn).Perm (W :: todo ++ dn) := List.perm_middle
      rw [List.append_assoc, List.nodup_append]
      refine ⟨List.nodup_reverse.2 hk, hp.nodup_iff.2 hnd, ?_⟩
      rintro c hc b hb rfl
      rw [List.mem_reverse, hmk] at hc
      have := (hT.up c (hp.mem_iff.1 hb) hc.1.2.1).2
      rw [hc.2] at this
      exact hWdn this
    · intro x hx
      rw [List.append_assoc, List.mem_append, List.mem_reverse, hmk] at hx
      rcases hx with hx | hx
      · have := hx.1.2.1
        exact ⟨hx.1.1, by omega, by omega⟩
      · exact hT.rng x (List.perm_middle.mem_iff.1 hx)
    · intro x hx hxN
      rw [List.append_assoc, List.mem_append, List.mem_reverse, hmk] at hx
      rcases hx with hx | hx
      · exact ⟨hx.1, by rw [hx.2]; simp⟩
      · have := hT.up x (List.perm_middle.mem_iff.1 hx) hxN
        exact ⟨this.1, by simp [this.2]⟩
    · intro c hc hh
      rw [List.append_assoc, List.mem_append, List.mem_reverse, hmk]
      rw [List.mem_cons] at hh
      rcases hh with hh | hh
      · exact .inl ⟨hc, hh⟩
      · exact .inr (List.perm_middle.mem_iff.2 (hT.closed c hc hh))
  have hlen : 2 * (kidsW.length + todo.length) ≤ 4 * B.N := by
    have h1 := hTodo.nodup
    have h2 : ∀ x ∈ (kidsW.reverse ++ todo) ++ W :: dn, 1 ≤ x ∧ x ≤ B.N + B.N := fun x hx => by
      have := hTodo.rng x hx; omega
    have h3 := vertices_length h1 h2
    simp only [List.length_append, List.length_reverse] at h3
    omega
  have hcap : s1.p.g.stack.length + 2 * (T.filter (isTree s1.p.g)).length ≤ s1.p.g.stackCap := by
    have h1 : (T.filter (isTree s1.p.g)).length = kidsW.length := by rw [hkd, List.length_map]
    have h2 : (todo.flatMap fun w => [fl (G.o w), w]).length = 2 * todo.length := by
      rw [List.length_flatMap]; simp [Nat.mul_comm]
    have h3 : s1.p.g.stackCap = B.g0.stackCap := (h.fix.trans (fix_of_same q2)).stackCap
    have := B.room
    rw [q2.stack, hst, h2, h1, h3]
    omega
  obtain ⟨g, hg⟩ := pushKids_total (fl (G.o W)) s1.p.g.eSize T s1.p.g (run_of_links q1 T [] rfl) (q1.nodup W)
    (fun e he => (q1.arc W e he).2) (q1.length_le W) hcap
  have hres := pushKids_spec _ _ T s1.p.g g (run_of_links q1 T [] rfl) (q1.nodup W) hg
  have hE : ∀ e, g.E e = if e ∈ T ∧ isTree s1.p.g e = true then { s1.p.g.E e with flags := cleared (s1.p.g.E e).flags } else s1.p.g.E e := by
    intro e; rw [hres]
  have hnb' : ∀ e, (g.E e).nbr = (s.p.g.E e).nbr := by
    intro e; rw [hE]; split <;> exact hnb e
  have hty' : ∀ e, (g.E e).flags &&& 14 = (s.p.g.E e).flags &&& 14 := by
    intro e; rw [hE]; split
    · show cleared (s1.p.g.E e).flags &&& 14 = _
      rw [cleared_type, hfl]
    · rw [hfl]
  refine ⟨s1, _, g, kidsW.reverse ++ todo, h1, ha, hg, hTodo, ?_, ?_, fun x hx => by simp [hx]⟩
  · -- orientation
    have hfix : Fix s1.p.g g := by rw [hres]; constructor <;> intros <;> rfl
    refine ⟨(h.fix.trans (fix_of_same q2)).trans hfix, ?_, ?_, ?_, h.hold, h.foot, ?_, ?_, ?_⟩
    · refine q1.congr hfix.N hfix.arcCap ?_ ?_
      · intro e b
        show (g.E e).link b = _
        rw [hE]; split <;> cases b <;> rfl
      · intro v b
        show (g.V v).link b = _
        rw [hres]
    · intro x e he
      show (g.E (twin e)).nbr = x
      rw [hnb']; exact h.owner x e he
    · intro e he
      show (g.E e).flags &&& 14 = 14 ↔ _
      rw [hty']; exact h.typ e he
    · intro c hc
      show (g.E (B.ta c)).flags.testBit 4 = _
      by_cases hh : holder G c = W
      · have := hholdT c hc hh
        rw [if_pos (by rw [hh]; simp), hE, if_pos ⟨this, (htree _ this).2 ⟨c, hc, hh, rfl⟩⟩]
        exact cleared_bit _
      · have hno : B.ta c ∉ T := by
          intro hq
          exact hh (h.links.disj _ _ _ (mem_turned.2 (h.hold c hc)) (mem_turned.2 ((hmT _).1 hq)))
        rw [hE, if_neg (fun q => hno q.1), hfl, h.sign c hc]
        have : holder G c ∈ W :: dn ↔ holder G c ∈ dn := by simp [hh]
        by_cases hd : holder G c ∈ dn
        · rw [if_pos hd, if_pos (this.2 hd)]
        · rw [if_neg hd, if_neg (fun q => hd (this.1 q))]
    · intro x hx1 hx2
      show (s1.p.VI x).parent = _
      rw [q3]; exact h.parent x hx1 hx2
    · intro e he
      show g.E e = {}
      rw [hE, if_neg, q4 e he]
      · exact h.zero e he
      · rintro ⟨hq, _⟩
        exact he (mem_raw.1 ((hmT e).1 hq)).1
  · -- stack
    have e1 : g.stack = (T.filter (isTree s1.p.g)).reverse.flatMap (fun e => [fl (G.o W) ^^^ ((s1.p.g.E e).flags &&& 16), (s1.p.g.E e).nbr]) ++ s1.p.g.stack := by
      rw [hres]
    rw [e1, q2.stack, hst, List.flatMap_append]
    congr 1
    rw [hkd, ← List.map_reverse, List.flatMap_map, List.flatMap_def, List.flatMap_def]
    congr 1
    refine List.map_congr_left fun e he => ?_
    rw [List.mem_reverse, List.mem_filter] at he
    obtain ⟨c, hc, hh, rfl⟩ := (htree e he.1).1 he.2
    rw [hnb, hfl, hnbta c hc]
    have hs := h.sign c hc
    rw [hh, if_neg hWdn] at hs
    rw [fl_sign _ _ _ hs]

theorem orientLoop_spec {m : Nat} (hm : B.N ≤ m) : ∀ (fuel : Nat) (s : EGraph) (todo dn : List Nat), Orient B G dn s → Todo G m todo dn →
    s.p.g.stack = (todo.flatMap fun w => [fl (G.o w), w]) → 2 * B.N ≤ fuel + dn.length →
    ∃ s' dn', orientLoop fuel s = some s' ∧ (∀ x ∈ todo ++ dn, x ∈ dn') ∧ Orient B G dn' s' ∧ Todo G m [] dn' ∧ s'.p.g.stack = [] := by
  intro fuel
  induction fuel with
  | zero =>
    intro s todo dn h hT hst hf
    cases todo with
    | nil =>
      have hst : s.p.g.stack = [] := hst
      exact ⟨s, dn, by unfold orientLoop; exact if_pos hst, by simp, h, hT, hst⟩
    | cons W todo =>
      have := vertices_length hT.nodup (N := B.N + B.N) fun x hx => by have := hT.rng x hx; omega
      simp only [List.cons_append, List.length_cons, List.length_append] at this
      omega
  | succ fuel ih =>
    intro s todo dn h hT hst hf
    cases todo with
    | nil =>
      have hst : s.p.g.stack = [] := hst
      exact ⟨s, dn, by unfold orientLoop; rw [hst], by simp, h, hT, hst⟩
    | cons W todo =>
      have hst : s.p.g.stack = fl (G.o W) :: W :: (todo.flatMap fun w => [fl (G.o w), w]) := hst
      obtain ⟨s1, a, g, todo', h1, ha, hg, t1, t2, t3, t4⟩ := orientOne (h.stack _) hT hm rfl
      obtain ⟨s', dn', d0, d1, d2⟩ := ih (s1.setG g) todo' (W :: dn) t2 t1 t3 (by rw [List.length_cons]; omega)
      refine ⟨s', dn', ?_, ?_, d2⟩
      · rw [← d0, orientLoop, hst]
        have he : ((if fl (G.o W) ≠ 0 then (s.setG { s.p.g with stack := todo.flatMap fun w => [fl (G.o w), w] }).invertVertex W
            else some (s.setG { s.p.g with stack := todo.flatMap fun w => [fl (G.o w), w] })).bind fun s =>
            (s.p.g.getArc W false).bind fun a => (pushKids (fl (G.o W)) s.p.g.eSize s.p.g a).bind fun g =>
              orientLoop fuel (s.setG g)) = orientLoop fuel (s1.setG g) := by
          have h1' : (if fl (G.o W) ≠ 0 then (s.setG { s.p.g with stack := todo.flatMap fun w => [fl (G.o w), w] }).invertVertex W
            else some (s.setG { s.p.g with stack := todo.flatMap fun w => [fl (G.o w), w] })) = some s1 := h1
          rw [h1', Option.bind_some, ha, Option.bind_some, hg, Option.bind_some]
        rw [← he]
        by_cases hf : fl (G.o W) ≠ 0
        · simp only [if_pos hf, Option.bind_eq_bind]
        · simp only [if_neg hf, Option.bind_eq_bind]
      · intro x hx
        refine d1 x ?_
        simp only [List.cons_append, List.mem_cons, List.mem_append] at hx ⊢
        rcases hx with hx | hx | hx
        · exact .inr (.inl hx)
        · exact .inl (t4 x hx)
        · exact .inr (.inr hx)

/-- The roots up to `c + N` have been treated. -/
structure Oriented (B : Base) (G : Gh B.D) (c : Nat) (dn : List Nat) (s : EGraph) : Prop where
  ori : Orient B G dn s
  todo : Todo G (B.N + c) [] dn
  stack : s.p.g.stack = []
  roots : ∀ k, k ≤ c → G.Live B.N k → k + B.N ∈ dn

theorem orientBicomp_spec {c : Nat} {dn : List Nat} (h : Oriented B G c dn s) (hc : c + 1 ≤ B.N)
    (ho : G.Live B.N (c + 1) → G.o (c + 1 + B.N) = false) :
    ∃ s' dn', s.orientBicomp (B.N + 1 + c) = some s' ∧ Oriented B G (c + 1) dn' s' := by
  have hR : B.N + 1 + c = c + 1 + B.N := by omega
  rw [hR]
  unfold orientBicomp
  simp only [Option.bind_eq_bind]
  have hT := h.todo
  have hv : c + 1 + B.N < s.p.g.vSize := by unfold Graph.vSize; rw [h.ori.N]; omega
  have hno : c + 1 + B.N ∉ dn := by
    intro hh
    have := hT.rng _ (by simpa using hh)
    omega
  rw [getArc_eq hv, Option.bind_some, h.ori.links.vlink _ false hv]
  obtain ⟨a, ha⟩ : ∃ a, a = endIn false (turned G dn (c + 1 + B.N)) := ⟨_, rfl⟩
  rw [← ha]
  have hlive : a ≠ 0 ↔ G.Live B.N (c + 1) := by
    rw [ha, Ne, endIn_zero_iff (h.ori.links.zero_not_mem _)]
    unfold turned Gh.Live
    rw [if_neg hno, raw_nil]
    simp
  have hT' : Todo G (B.N + (c + 1)) [] dn := by
    refine ⟨hT.nodup, ?_, hT.up, hT.closed⟩
    intro x hx
    have := hT.rng x hx
    exact ⟨this.1, by omega, by omega⟩
  by_cases ha0 : a ≠ 0
  · rw [if_pos ha0]
    have hsc : s.p.g.stackCap = B.g0.stackCap := h.ori.fix.stackCap
    have hrm := B.room
    rw [push2_ok _ _ (by rw [h.stack, List.length_nil]; omega), Option.bind_some, h.stack]
    obtain ⟨g, hg⟩ : ∃ g, g = { s.p.g with stack := [0, c + 1 + B.N] } := ⟨_, rfl⟩
    rw [← hg]
    have hl := hlive.1 ha0
    have hTd : Todo G (B.N + (c + 1)) [c + 1 + B.N] dn := by
      refine ⟨?_, ?_, ?_, ?_⟩
      · simp only [List.cons_append, List.nil_append, List.nodup_cons]
        exact ⟨hno, by simpa using hT.nodup⟩
      · intro x hx
        simp only [List.cons_append, List.nil_append, List.mem_cons] at hx
        rcases hx with rfl | hx
        · exact ⟨by omega, by omega, by omega⟩
        · exact hT'.rng x (by simpa using hx)
      · intro x hx hxN
        simp only [List.cons_append, List.nil_append, List.mem_cons] at hx
        rcases hx with rfl | hx
        · omega
        · exact hT.up x (by simpa using hx) hxN
      · intro k hk hh
        have := hT.closed k hk hh
        simp only [List.nil_append] at this
        simp [this]
    obtain ⟨s', dn', d0, d1, d2, d3, d4⟩ := orientLoop_spec (B := B) (m := B.N + (c + 1)) (Nat.le_add_right _ _) (s.p.g.vSize + 1) (s.setG g) [c + 1 + B.N] dn
      (by rw [hg]; exact h.ori.stack _) hTd
      (by
        rw [hg]
        show [0, c + 1 + B.N] = [fl (G.o (c + 1 + B.N)), c + 1 + B.N]
        rw [ho hl]; rfl) (by unfold Graph.vSize; rw [h.ori.N]; omega)
    · refine ⟨s', dn', d0, d2, d3, d4, ?_⟩
      intro k hk hkl
      rcases Nat.lt_or_ge c k with hck | hck
      · have : k = c + 1 := by omega
        subst this
        exact d1 _ (by simp)
      · exact d1 _ (by simp [h.roots k hck hkl])
  · rw [if_neg ha0]
    refine ⟨s, dn, rfl, h.ori, hT', h.stack, ?_⟩
    intro k hk hkl
    rcases Nat.lt_or_ge c k with hck | hck
    · have : k = c + 1 := by omega
      subst this
      exact absurd (hlive.2 hkl) ha0
    · exact h.roots k hck hkl

theorem orientAll_loop (ho : ∀ c, 1 ≤ c → c ≤ B.N → G.Live B.N c → G.o (c + B.N) = false) {s0 : EGraph} {dn : List Nat}
    (h0 : Oriented B G 0 dn s0) : ∀ (n : Nat), n ≤ B.N →
    ∃ s' dn', (List.range n).foldlM (fun s i => s.orientBicomp (s.p.g.N + 1 + i)) s0 = some s' ∧ Oriented B G n dn' s' := by
  intro n
  induction n with
  | zero => exact fun _ => ⟨s0, dn, rfl, h0⟩
  | succ n ih =>
    intro hn
    obtain ⟨s1, dn1, h1, m⟩ := ih (by omega)
    obtain ⟨s2, dn2, h2, m2⟩ := orientBicomp_spec m hn (ho _ (by omega) hn)
    refine ⟨s2, dn2, ?_, m2⟩
    rw [List.range_succ, List.foldlM_append, h1]
    simp only [List.foldlM_cons, List.foldlM_nil, Option.bind_eq_bind, Option.bind_some]
    rw [m.ori.N, h2]
    rfl

end Verif.Embed
