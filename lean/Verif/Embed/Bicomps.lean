import Verif.Embed.Origin

/-
_MergeBicomps and the embedding of a back edge keep the state of the embedder.
-/
namespace Verif.Embed
open Verif Verif.Graph Verif.EGraph Equiv Equiv.Perm Verif.Map Function
open Verif.Props (AncEq Anc)

variable {B : Base} {Pl : Plan B} {G : Gh B.D} {s : EGraph} {fw PR : Nat → List Nat} {v : Nat}

theorem isChain_congr' {α : Type} {r r' : α → α → Prop} : ∀ {l : List α}, (∀ a ∈ l.dropLast, ∀ b ∈ l.tail, r a b → r' a b) →
    List.IsChain r l → List.IsChain r' l
  | [], _, _ => .nil
  | [_], _, _ => .singleton _
  | a :: b :: l, h, hc => by
    rw [List.isChain_cons_cons] at hc ⊢
    refine ⟨h a (by simp) b (by simp) hc.1, isChain_congr' (fun x hx y hy => h x ?_ y ?_) hc.2⟩
    · rw [List.dropLast_cons_of_ne_nil (by simp)]; exact List.mem_cons_of_mem _ hx
    · simp at hy ⊢; exact .inr hy

theorem Open.congr {R : Nat} {Y : List Nat} {o : Nat → Bool} (h : Open s R Y o) {s' : EGraph} (he : s'.ext = s.ext) : Open s' R Y o := by
  refine ⟨?_, h.ne, h.nodup, h.root, by rw [he]; exact h.fit⟩
  refine isChain_congr ?_ h.chain
  intro a _ b _ hl
  unfold lnk at *
  rw [he]; exact hl

theorem merge_X_self {b Z c : Nat} {Q : List Nat} : (G.merge B.N b Z c Q).X b = G.X c ++ Z :: Q := update_self _ _ _
theorem merge_X_ne {b Z c k : Nat} {Q : List Nat} (h : k ≠ b) : (G.merge B.N b Z c Q).X k = G.X k := update_of_ne h _ _

theorem St.mergeOne (h : St Pl s G fw PR v) {b c Z : Nat} {P Q : List Nat} (hb : G.Live B.N b) (hc : G.Live B.N c)
    (hZc : B.par c = Z) (hX : G.X b = P ++ Z :: Q) (hI : ∀ x ∈ P, Quiet Pl G fw v x) (op : Open s (c + B.N) (G.X c) G.o)
    (hr : ∀ k, G.Live B.N k → k ≠ c → Ring s (k + B.N) (G.X k) G.o) (hcP : c ∈ PR Z) :
    ∃ s', s.mergeOne (c + B.N) (G.o (c + B.N)) Z (!G.o Z) = some s' ∧
    St Pl s' (G.merge B.N b Z c Q) fw (update PR Z ((PR Z).erase c)) v ∧
      Open s' (b + B.N) (G.X c ++ Z :: Q) G.o ∧
      (∀ k, G.Live B.N k → k ≠ c → k ≠ b → Ring s' (k + B.N) (G.X k) G.o) ∧ VKeep s.p s'.p ∧ s'.p.g.stack = s.p.g.stack ∧
      s'.kids = s.kids := by
  obtain ⟨hZ1, hZN, hZb⟩ := h.good.bd b hb Z (by rw [hX]; simp)
  obtain ⟨hcN, hc0, hcr⟩ := h.good.root c hc
  have hlt := B.par_lt c hc.1 hcN
  have hbZ : b ≤ Z := hZb ▸ h.good.cp_le B.par_lt hZ1 hZN
  have hbc : b ≠ c := by omega
  obtain ⟨T, x, hxc⟩ : ∃ T x, G.X c = T ++ [x] := by
    rcases List.eq_nil_or_concat (G.X c) with hh | ⟨T, x, hh⟩
    · exact absurd hh op.ne
    · exact ⟨T, x, by rw [hh, List.concat_eq_append]⟩
  obtain ⟨hx1, hxN, hxcp⟩ := h.good.bd c hc x (by rw [hxc]; simp)
  have hck : c < s.kids.N := by
    rw [h.kids]
    exact (Pl.kl.bound Z c ((Pl.kid_iff Z c).2 ⟨⟨hc.1, hcN, hc0⟩, hZc⟩)).2
  obtain ⟨s', he, rep', hpr', hvk, hk, hst, hoff, hext, hfpc, hrn⟩ := mergeOne_spec h.rep h.good hb hc hZc hX hxc op h.prl hcP hck
  have hlive : ∀ k, (G.merge B.N b Z c Q).Live B.N k ↔ G.Live B.N k ∧ k ≠ c := merge_live ⟨hZ1, hZN⟩
  have hfne : ∀ u, ∀ f ∈ fw u, s'.p.g.E f = s.p.g.E f := fun u f hf => hoff f (h.wait.off u f hf)
  have hZx : Z ≠ x := by rintro rfl; rw [hZb] at hxcp; omega
  have hrb := hr b hb hbc
  have hnb : (P ++ Z :: Q).Nodup := hX ▸ hrb.nodup
  have hQb : ∀ y ∈ Q, y ≠ Z ∧ y ≤ B.N ∧ G.cp y = b := by
    intro y hy
    have := h.good.bd b hb y (by rw [hX]; simp [hy])
    refine ⟨?_, this.2.1, this.2.2⟩
    rintro rfl
    rw [List.nodup_append] at hnb
    simp [hy] at hnb
  refine ⟨s', he, ⟨rep', h.good.merge B.α_α B.par_lt hb hc hZc hX, ?_, ?_, h.sub, ?_, ?_, hpr', hk.trans h.kids, ?_, ?_, ?_, ?_, ?_, ?_, hrn.trans h.rn⟩,
    ?_, ?_, hvk, hst, hk⟩
  · refine h.fwl.congr ?_ (fun z _ _ => hvk.fwd z) ?_
    · show s'.p.g.eSize = s.p.g.eSize
      rw [rep'.eSize, h.rep.eSize]
    · intro z y hy
      show (s'.p.g.E y).link false = _ ∧ (s'.p.g.E y).link true = _
      rw [hfne z y hy]; exact ⟨rfl, rfl⟩
  · exact h.wait.mono fun d y hd => (merge_of_mem hd).imp fun _ => And.left
  · intro u f hf; rw [hfne u f hf]; exact h.nbr u f hf
  · intro d
    exact (h.cover d).imp (fun ⟨y, hy⟩ => ⟨_, merge_mem hy⟩) id
  · intro y h1 h2; rw [hvk.kids]; exact h.kh y h1 h2
  · intro y h1 h2; rw [hvk.low]; exact h.low y h1 h2
  · intro y h1 h2; rw [hvk.la]; exact h.la y h1 h2
  · intro y h1 h2
    obtain ⟨A, T', e1, e2, e3⟩ := h.fp y h1 h2
    have e3' : ∀ k ∈ A, ¬ (G.merge B.N b Z c Q).Live B.N k ∨ v ≤ Pl.low k :=
      fun k hk => (e3 k hk).imp (fun hh hl => hh ((hlive k).1 hl).1) id
    rcases hfpc with hh | ⟨hh1, hh2, hh3⟩
    · exact ⟨A, T', e1, by rw [hh]; exact e2, e3'⟩
    · by_cases hyZ : y = Z
      · subst hyZ
        rw [hh2] at e2
        cases T' with
        | nil => simp at e2; have := hc.1; omega
        | cons c' T' =>
          have hcc : c = c' := e2
          subst hcc
          rw [h.kids, h.kh y h1 h2, Pl.next ⟨h1, h2⟩ e1] at hh3
          refine ⟨A ++ [c], T', by rw [e1]; simp, (Option.some.inj hh3).symm, ?_⟩
          intro k hk
          rcases List.mem_append.1 hk with hk | hk
          · exact e3' k hk
          · simp at hk; subst hk
            exact .inl fun hl => ((hlive k).1 hl).2 rfl
      · exact ⟨A, T', e1, by rw [hh1 y hyZ]; exact e2, e3'⟩
  · intro u y hu hy hn
    have hn' : Need Pl G fw u y := hn.mono (fun k hk => ((hlive k).1 hk).1) fun _ hf => hf
    obtain ⟨a1, a2⟩ := h.act u y hu hy hn'
    show (G.merge B.N b Z c Q).Live B.N (if G.cp y = c then b else G.cp y) ∧ y ∈ (G.merge B.N b Z c Q).X (if G.cp y = c then b else G.cp y)
    by_cases hyc : G.cp y = c
    · rw [if_pos hyc, merge_X_self]
      rw [hyc] at a2
      exact ⟨(hlive b).2 ⟨hb, hbc⟩, by simp [a2]⟩
    · rw [if_neg hyc]
      refine ⟨(hlive _).2 ⟨a1, hyc⟩, ?_⟩
      by_cases hyb : G.cp y = b
      · rw [hyb, merge_X_self]
        rw [hyb, hX] at a2
        rcases List.mem_append.1 a2 with hh | hh
        · exact absurd hn' ((hI y hh).not_need h.sub hu)
        · simp at hh ⊢; rcases hh with hh | hh <;> simp [hh]
      · rw [merge_X_ne hyb]; exact a2
  · intro ha y h1 h2 hl
    have hP := Quiet.none hI ha
    show y ∈ (G.merge B.N b Z c Q).X (if G.cp y = c then b else G.cp y)
    change (G.merge B.N b Z c Q).Live B.N (if G.cp y = c then b else G.cp y) at hl
    by_cases hyc : G.cp y = c
    · have a2 := h.all ha y h1 h2 (by rw [hyc]; exact hc)
      rw [hyc] at a2
      rw [if_pos hyc, merge_X_self]
      simp [a2]
    · rw [if_neg hyc] at hl ⊢
      have a2 := h.all ha y h1 h2 ((hlive _).1 hl).1
      by_cases hyb : G.cp y = b
      · rw [hyb, merge_X_self]
        rw [hyb, hX, hP] at a2
        exact List.mem_append_right _ a2
      · rw [merge_X_ne hyb]; exact a2
  · -- the open ring
    have hbN := (h.good.root b hb).1
    have hb1 := hb.1
    have hnc : (G.X c).Nodup := op.nodup
    have hcX : ∀ y ∈ G.X c, y ≤ B.N ∧ G.cp y = c := fun y hy => (h.good.bd c hc y hy).2
    refine ⟨?_, by simp, ?_, ?_, ?_⟩
    · have e : G.X c ++ Z :: Q ++ [b + B.N] = G.X c ++ (Z :: (Q ++ [b + B.N])) := by simp
      rw [e, List.isChain_append]
      refine ⟨?_, ?_, ?_⟩
      · have h1 : List.IsChain (lnk s G.o) (G.X c) := by
          have := op.chain
          rw [List.isChain_append] at this
          exact this.1
        refine isChain_congr' ?_ h1
        intro y hy y' hy' hl
        have hyT : y ∈ T := by rw [hxc] at hy; simpa using hy
        have hyx : y ≠ x := by
          rintro rfl
          rw [hxc, List.nodup_append] at hnc
          exact hnc.2.2 y hyT y (by simp) rfl
        have hyc := hcX y (by rw [hxc]; simp [hyT])
        have hyc' := hcX y' (List.mem_of_mem_tail hy')
        have hyZ : y ≠ Z := by rintro rfl; omega
        have hyZ' : y' ≠ Z := by rintro rfl; omega
        constructor
        · rw [hext y _ (by omega), if_neg (by rintro ⟨hh, _⟩; exact hyx hh), if_neg (by rintro ⟨hh, _⟩; exact hyZ hh)]
          exact hl.1
        · rw [hext y' _ (by omega), if_neg (by rintro ⟨rfl, hh⟩; simp at hh), if_neg (by rintro ⟨hh, _⟩; exact hyZ' hh)]
          exact hl.2
      · have h1 : List.IsChain (lnk s G.o) (Z :: (Q ++ [b + B.N])) := by
          have := hrb.chain
          rw [hX] at this
          have e : (b + B.N) :: (P ++ Z :: Q ++ [b + B.N]) = ((b + B.N) :: P) ++ (Z :: (Q ++ [b + B.N])) := by simp
          rw [e, List.isChain_append] at this
          exact this.2.1
        refine isChain_congr' ?_ h1
        intro y hy y' hy' hl
        have hy2 : y = Z ∨ y ∈ Q := by
          rw [← List.cons_append, List.dropLast_concat] at hy; simpa using hy
        have hy2' : y' ∈ Q ∨ y' = b + B.N := by simpa using hy'
        have hy3 : G.cp y = b ∧ y ≤ B.N := by
          rcases hy2 with rfl | hh
          · exact ⟨hZb, hZN⟩
          · exact ⟨(hQb y hh).2.2, (hQb y hh).2.1⟩
        constructor
        · rw [hext y _ (by omega), if_neg (by rintro ⟨rfl, _⟩; omega), if_neg (by rintro ⟨rfl, hh⟩; simp at hh)]
          exact hl.1
        · rcases hy2' with hh | rfl
          · have := hQb y' hh
            rw [hext y' _ (by omega), if_neg (by rintro ⟨rfl, _⟩; omega), if_neg (by rintro ⟨hh, _⟩; exact this.1 hh)]
            exact hl.2
          · rw [hext _ _ (by omega), if_neg (by rintro ⟨hh, _⟩; omega), if_neg (by rintro ⟨hh, _⟩; omega)]
            exact hl.2
      · intro y hy y' hy'
        simp at hy'
        subst hy'
        rw [hxc] at hy
        simp at hy
        subst hy
        constructor
        · rw [hext x _ (by omega), if_pos ⟨rfl, rfl⟩]
        · rw [hext Z _ (by omega), if_neg (by rintro ⟨hh, _⟩; exact hZx hh), if_pos ⟨rfl, rfl⟩]
    · rw [List.nodup_append]
      rw [List.nodup_append] at hnb
      refine ⟨hnc, hnb.2.1, ?_⟩
      intro y hy y' hy' hyy
      have h1 := hcX y hy
      have h2 : G.cp y' = b := by
        rcases List.mem_cons.1 hy' with rfl | hh
        · exact hZb
        · exact (hQb y' hh).2.2
      rw [hyy, h2] at h1
      exact hbc h1.2
    · intro hh
      rcases List.mem_append.1 hh with hh | hh
      · have := hcX _ hh; omega
      · rcases List.mem_cons.1 hh with hh | hh
        · omega
        · have := hQb _ hh; omega
    · intro T' y hy hyr
      exfalso
      rcases List.eq_nil_or_concat Q with rfl | ⟨Q', a, rfl⟩
      · have : y = Z := by
          have := congrArg List.getLast? hy
          simp at this; exact this.symm
        subst this
        rw [hext y _ (by omega), if_neg (by rintro ⟨hh, _⟩; exact hZx hh), if_pos ⟨rfl, rfl⟩] at hyr
        omega
      · rw [List.concat_eq_append] at hy hX hQb
        have : y = a := by
          have := congrArg List.getLast? hy
          simp [List.getLast?_append, List.getLast?_cons] at this
          exact this.symm
        subst this
        have h3 := hQb y (by simp)
        rw [hext y _ (by omega), if_neg (by rintro ⟨rfl, _⟩; omega), if_neg (by rintro ⟨hh, _⟩; exact h3.1 hh)] at hyr
        have hrb' := hrb
        obtain ⟨Q'', z, hz⟩ : ∃ Q'' z, P ++ Z :: (Q' ++ [y]) = Q'' ++ [z, y] := by
          rcases List.eq_nil_or_concat Q' with rfl | ⟨Q'', z, rfl⟩
          · exact ⟨P, Z, by simp⟩
          · exact ⟨P ++ Z :: Q'', z, by simp⟩
        rw [hX, hz] at hrb'
        exact hrb'.last_ne hyr
  · intro k hk hkc hkb
    refine (hr k hk hkc).congr ?_ fun _ _ => rfl
    intro y hy d
    have hcy : G.cp y = k := by
      rcases hy with rfl | hy
      · exact (h.good.root k hk).2.2
      · exact (h.good.bd k hk y hy).2.2
    rw [hext y d (by rintro rfl; rw [hcr] at hcy; exact hkc hcy.symm), if_neg (by rintro ⟨rfl, _⟩; rw [hxcp] at hcy; exact hkc hcy.symm),
      if_neg (by rintro ⟨rfl, _⟩; rw [hZb] at hcy; exact hkb hcy.symm)]

/-- The way from the component of `c0` down to the vertex `W` of component `b`, as the stack records it. `I` holds for the
vertices passed over, `V` are the vertices ahead. -/
def Path (I : Nat → Prop) (G : Gh B.D) (PR : Nat → List Nat) (c0 : Nat) : List (Nat × Nat) → Nat → Nat → List Nat → Prop
  | [], b, W, V => b = c0 ∧ G.Live B.N c0 ∧ ∃ P Q, G.X c0 = P ++ W :: Q ∧ V = W :: Q ∧ ∀ x ∈ P, I x
  | (Z, c) :: fr, b, W, V => b = c ∧ B.par c = Z ∧ G.Live B.N c ∧ c ∈ PR Z ∧ (∃ Q, G.X c = W :: Q) ∧
      ∃ b' V', V = G.X c ++ V' ∧ Path I G PR c0 fr b' Z V'

theorem Path.split {I : Nat → Prop} {c0 b W : Nat} {V : List Nat} {fr : List (Nat × Nat)} (h : Path I G PR c0 fr b W V) :
    G.Live B.N b ∧ ∃ P Q, G.X b = P ++ W :: Q ∧ ∀ x ∈ P, I x := by
  cases fr with
  | nil => obtain ⟨rfl, h1, P, Q, h2, _, h3⟩ := h; exact ⟨h1, P, Q, h2, h3⟩
  | cons f fr =>
    obtain ⟨rfl, h1, h2, h3, ⟨Q, hQ⟩, h5⟩ := h
    exact ⟨h2, [], Q, hQ, by simp⟩

theorem Path.split_ahead {I : Nat → Prop} {c0 b W : Nat} {V : List Nat} {fr : List (Nat × Nat)} (h : Path I G PR c0 fr b W V) :
    ∃ P Q R, G.X b = P ++ W :: Q ∧ (∀ x ∈ P, I x) ∧ V = W :: Q ++ R ∧ (fr = [] → R = []) ∧
      ∀ Z c fr', fr = (Z, c) :: fr' → ∃ b', Path I G PR c0 fr' b' Z R := by
  cases fr with
  | nil => obtain ⟨rfl, h1, P, Q, h2, h4, h3⟩ := h; exact ⟨P, Q, [], h2, h3, by simpa using h4, fun _ => rfl, by simp⟩
  | cons f fr =>
    obtain ⟨rfl, h1, h2, h3, ⟨Q, hQ⟩, b', V', h4, h5⟩ := h
    refine ⟨[], Q, V', hQ, by simp, by rw [h4, hQ], by simp, ?_⟩
    intro Z c fr' e
    simp only [List.cons.injEq] at e
    obtain ⟨rfl, rfl⟩ := e
    exact ⟨b', h5⟩

theorem Path.head {I : Nat → Prop} {c0 b W : Nat} {V : List Nat} {fr : List (Nat × Nat)} (h : Path I G PR c0 fr b W V) :
    ∃ Q, V = W :: Q := by
  cases fr with
  | nil => obtain ⟨rfl, h1, P, Q, h2, h3, _⟩ := h; exact ⟨Q, h3⟩
  | cons f fr =>
    obtain ⟨rfl, h1, h2, h3, ⟨Q, hQ⟩, b', V', h5, _⟩ := h
    exact ⟨Q ++ V', by rw [h5, hQ]; rfl⟩

theorem Path.cp {I : Nat → Prop} {c0 b W : Nat} {V : List Nat} {fr : List (Nat × Nat)} (hg : Good B.N B.par B.α G) (h : Path I G PR c0 fr b W V) :
    1 ≤ W ∧ W ≤ B.N ∧ G.cp W = b ∧ b ≤ W := by
  obtain ⟨h1, P, Q, h2, _⟩ := h.split
  obtain ⟨h3, h4, h5⟩ := hg.bd b h1 W (by rw [h2]; simp)
  exact ⟨h3, h4, h5, h5 ▸ hg.cp_le B.par_lt h3 h4⟩

theorem Path.anc {I : Nat → Prop} {c0 : Nat} (hg : Good B.N B.par B.α G) : ∀ {fr : List (Nat × Nat)} {b W : Nat} {V : List Nat},
    Path I G PR c0 fr b W V → AncEq B.par c0 b
  | [], b, W, V, h => by obtain ⟨rfl, _⟩ := h; exact .refl _
  | (Z, c) :: fr, b, W, V, h => by
    obtain ⟨rfl, h1, h2, h3, h4, b', V', _, h5⟩ := h
    have h6 := h5.anc hg
    have h7 := h5.cp hg
    refine .up (hg.root b h2).2.1 (h6.trans ?_)
    rw [h1, ← h7.2.2.1]
    exact hg.anc B.par_lt Z h7.1 h7.2.1

theorem Path.anc' {I : Nat → Prop} {c0 b W : Nat} {V : List Nat} {fr : List (Nat × Nat)} (hg : Good B.N B.par B.α G) (h : Path I G PR c0 fr b W V) :
    AncEq B.par c0 W := by
  have h7 := h.cp hg
  refine (h.anc hg).trans ?_
  rw [← h7.2.2.1]
  exact hg.anc B.par_lt W h7.1 h7.2.1

theorem Path.mono {I I' : Nat → Prop} {G' : Gh B.D} {PR' : Nat → List Nat} {c0 m : Nat} (hg : Good B.N B.par B.α G)
    (hI : ∀ x, I x → I' x) (hX : ∀ k < m, G'.X k = G.X k) (hl : ∀ k < m, G.Live B.N k → G'.Live B.N k)
    (hP : ∀ z < m, PR' z = PR z) : ∀ {fr : List (Nat × Nat)} {b W : Nat} {V : List Nat}, Path I G PR c0 fr b W V → b < m →
      Path I' G' PR' c0 fr b W V
  | [], b, W, V, h, hb => by
    obtain ⟨rfl, h1, P, Q, h2, h4, h3⟩ := h
    exact ⟨rfl, hl _ hb h1, P, Q, by rw [hX _ hb, h2], h4, fun x hx => hI x (h3 x hx)⟩
  | (Z, c) :: fr, b, W, V, h, hb => by
    obtain ⟨rfl, h1, h2, h3, h4, b', V', h6, h5⟩ := h
    have hr := hg.root b h2
    have := B.par_lt b h2.1 hr.1
    have h7 := h5.cp hg
    refine ⟨rfl, h1, hl _ hb h2, by rw [hP Z (by omega)]; exact h3, by rw [hX _ hb]; exact h4, b', V', by rw [hX _ hb]; exact h6, ?_⟩
    exact h5.mono hg hI hX hl hP (by omega)

/-- The vertices ahead are in components of the path. -/
theorem Path.ahead {I : Nat → Prop} {c0 : Nat} (hg : Good B.N B.par B.α G) : ∀ {fr : List (Nat × Nat)} {b W : Nat} {V : List Nat},
    Path I G PR c0 fr b W V → ∀ q ∈ V, (1 ≤ q ∧ q ≤ B.N) ∧ (G.cp q = c0 ∨ G.cp q ∈ fr.map Prod.snd) ∧ G.cp q ≤ b
  | [], b, W, V, h => by
    obtain ⟨rfl, h1, P, Q, h2, rfl, h3⟩ := h
    intro q hq
    obtain ⟨q1, q2, q3⟩ := hg.bd b h1 q (by rw [h2]; simp at hq ⊢; exact .inr hq)
    exact ⟨⟨q1, q2⟩, .inl q3, q3.le⟩
  | (Z, c) :: fr, b, W, V, h => by
    obtain ⟨rfl, h1, h2, h3, h4, b', V', rfl, h5⟩ := h
    intro q hq
    rcases List.mem_append.1 hq with hq | hq
    · obtain ⟨q1, q2, q3⟩ := hg.bd b h2 q hq
      exact ⟨⟨q1, q2⟩, .inr (by simp [q3]), q3.le⟩
    · obtain ⟨q1, q2, q3⟩ := h5.ahead hg q hq
      have hr := hg.root b h2
      have := B.par_lt b h2.1 hr.1
      have h7 := h5.cp hg
      exact ⟨q1, q2.imp id fun hh => by simp at hh ⊢; exact .inr hh, by omega⟩

theorem rim_suffix {F : List Nat} {a W : Nat} {P Q : List Nat} (hn : F.Nodup) (hs : (P ++ W :: Q).Sublist F)
    (hch : List.IsChain B.Adj (a :: F ++ [a])) : ∃ C, (∀ p ∈ W :: C, p ∈ F) ∧ (W :: Q).Sublist (W :: C) ∧ (W :: C).Nodup ∧
      List.IsChain B.Adj (W :: C ++ [a]) := by
  obtain ⟨A, C, rfl⟩ := List.append_of_mem (hs.subset (List.mem_append_right P List.mem_cons_self))
  rw [List.nodup_append] at hn
  have h1 : W ∉ A := fun hh => hn.2.2 W hh W (by simp) rfl
  have h2 : W ∉ C := (List.nodup_cons.1 hn.2.1).1
  refine ⟨C, fun p hp => List.mem_append_right A hp, (sublist_split hs h1 h2).2.cons_cons W, hn.2.1, ?_⟩
  have e : a :: (A ++ W :: C) ++ [a] = (a :: A) ++ (W :: C ++ [a]) := by simp
  rw [e, List.isChain_append] at hch
  exact hch.2.1

/-- The way along the vertices ahead to the parent of `c0`. -/
theorem Path.rim {I : Nat → Prop} {c0 : Nat} (hg : Good B.N B.par B.α G) (hr : ∀ k, G.Live B.N k → Rim G k) :
    ∀ {fr : List (Nat × Nat)} {b W : Nat} {V : List Nat}, Path I G PR c0 fr b W V → ∃ C, V.Sublist (W :: C) ∧ (W :: C).Nodup ∧
      (∀ p ∈ W :: C, (1 ≤ p ∧ p ≤ B.N) ∧ (G.cp p = c0 ∨ G.cp p ∈ fr.map Prod.snd) ∧ G.cp p ≤ b) ∧
      List.IsChain B.Adj (W :: C ++ [B.par c0])
  | [], b, W, V, h => by
    obtain ⟨rfl, h1, P, Q, h2, rfl, h3⟩ := h
    obtain ⟨F, f1, f2, f3, f4⟩ := hr b h1
    rw [h2] at f2
    obtain ⟨C, g1, g2, g3, g4⟩ := rim_suffix f1 f2 f4
    refine ⟨C, g2, g3, ?_, g4⟩
    intro p hp
    obtain ⟨q1, q2, q3⟩ := f3 p (g1 p hp)
    exact ⟨⟨q1, q2⟩, .inl q3, q3.le⟩
  | (Z, c) :: fr, b, W, V, h => by
    obtain ⟨rfl, h1, h2, h3, ⟨Q, h4⟩, b', V', rfl, h5⟩ := h
    obtain ⟨C', k1, k2, k3, k4⟩ := h5.rim hg hr
    obtain ⟨F, f1, f2, f3, f4⟩ := hr b h2
    rw [h4] at f2
    obtain ⟨C, g1, g2, g3, g4⟩ := rim_suffix (P := []) f1 f2 f4
    have hrt := hg.root b h2
    have := B.par_lt b h2.1 hrt.1
    have h7 := h5.cp hg
    refine ⟨C ++ Z :: C', ?_, ?_, ?_, ?_⟩
    · rw [h4, ← List.cons_append]
      exact g2.append k1
    · rw [← List.cons_append, List.nodup_append]
      refine ⟨g3, k2, ?_⟩
      rintro x hx y hy rfl
      have q1 := (f3 x (g1 x hx)).2.2
      have q2 := (k3 x hy).2.2
      omega
    · intro p hp
      rw [← List.cons_append, List.mem_append] at hp
      rcases hp with hp | hp
      · obtain ⟨q1, q2, q3⟩ := f3 p (g1 p hp)
        exact ⟨⟨q1, q2⟩, .inr (by simp [q3]), q3.le⟩
      · obtain ⟨q1, q2, q3⟩ := k3 p hp
        exact ⟨q1, q2.imp id fun hh => by simp at hh ⊢; exact .inr hh, by omega⟩
    · have e : W :: (C ++ Z :: C') ++ [B.par c0] = (W :: C) ++ (Z :: C' ++ [B.par c0]) := by simp
      rw [e, List.isChain_append]
      rw [List.isChain_append] at g4
      refine ⟨g4.1, k4, ?_⟩
      intro x hx y hy
      refine g4.2.2 x hx y ?_
      rw [h1]
      simpa using hy

/-- The words on the stack. -/
def words (n : Nat) (o : Nat → Bool) : List (Nat × Nat) → List Nat
  | [] => []
  | (Z, c) :: fr => bit (o (c + n)) :: (c + n) :: bit (!o Z) :: Z :: words n o fr

theorem linkOf_bit (b : Bool) : Graph.linkOf (bit b) = some b := by cases b <;> rfl

theorem mergeBicomps_spec {I : Nat → Prop} {c0 W : Nat} {V : List Nat} : ∀ (fuel : Nat) (fr : List (Nat × Nat)) (s : EGraph) (G : Gh B.D)
    (PR : Nat → List Nat) (b : Nat), St Pl s G fw PR v → Path I G PR c0 fr b W V → (∀ x, I x → Quiet Pl G fw v x) →
    Open s (b + B.N) (G.X b) G.o → (∀ k, G.Live B.N k → k ≠ b → Ring s (k + B.N) (G.X k) G.o) →
    (∃ A, G.Rim B.α B.N b A) → (∀ k, G.Live B.N k → k ≠ b → G.Tight B.α B.N k) →
    (∀ z, ∀ c ∈ PR z, G.Live B.N c ∧ B.par c = z) → s.p.g.stack = words B.N G.o fr → fr.length ≤ fuel →
    ∃ s', mergeBicomps fuel s = some s' ∧ ∃ G' PR', St Pl s' G' fw PR' v ∧ (∃ P Q, G'.X c0 = P ++ W :: Q ∧ V = W :: Q ∧ ∀ x ∈ P, I x) ∧ G'.Live B.N c0 ∧
      Open s' (c0 + B.N) (G'.X c0) G'.o ∧
      (∀ k, G'.Live B.N k → k ≠ c0 → Ring s' (k + B.N) (G'.X k) G'.o) ∧ G'.o = G.o ∧ s'.p.g.stack = [] ∧ VKeep s.p s'.p ∧
      Evo Pl c0 v G fw PR G' fw PR' ∧ (∀ z c, c ∈ PR' z ↔ c ∈ PR z ∧ G'.Live B.N c) ∧
      (G'.X c0).getLast? = (G.X c0).getLast? ∧ (∀ f ∈ fr, ¬ G'.Live B.N f.2) ∧
      (fr ≠ [] → 2 ≤ (G'.X c0).length) ∧ (fr = [] → G' = G) ∧
      (∀ x, G.cp x = c0 ∨ G.cp x ∈ fr.map Prod.snd → G'.cp x = c0) ∧
      (∃ A, G'.Rim B.α B.N c0 A) ∧ ∀ k, G'.Live B.N k → k ≠ c0 → G'.Tight B.α B.N k := by
  intro fuel
  induction fuel with
  | zero =>
    intro fr s G PR b h hp hI op hr hrim hti hreg hst hl
    unfold mergeBicomps
    split
    · next h0 =>
      rw [h0] at hst
      cases fr with
      | nil =>
        obtain ⟨rfl, h1, h2⟩ := hp
        exact ⟨s, rfl, G, PR, h, h2, h1, op, hr, rfl, h0, VKeep.refl _, Evo.refl _ _ _,
          fun z c => ⟨fun hc => ⟨hc, (hreg z c hc).1⟩, And.left⟩, rfl, by simp, by simp, fun _ => rfl, by simp, hrim, hti⟩
      | cons f fr => simp [words] at hst
    · next h0 =>
      cases fr with
      | nil => exact absurd hst h0
      | cons f fr => simp at hl
  | succ fuel ih =>
    intro fr s G PR b h hp hI op hr hrim hti hreg hst hl
    generalize he : mergeBicomps (fuel + 1) s = o
    unfold mergeBicomps at he
    cases fr with
    | nil =>
      rw [hst] at he
      simp only [words] at he
      subst he
      obtain ⟨rfl, h1, h2⟩ := hp
      exact ⟨s, rfl, G, PR, h, h2, h1, op, hr, rfl, hst, VKeep.refl _, Evo.refl _ _ _,
        fun z c => ⟨fun hc => ⟨hc, (hreg z c hc).1⟩, And.left⟩, rfl, by simp, by simp, fun _ => rfl, by simp, hrim, hti⟩
    | cons f fr =>
      obtain ⟨Z, c⟩ := f
      obtain ⟨rfl, hbZ, hlb, hbP, ⟨Q0, hQ0⟩, b', V', hV, hp'⟩ := hp
      rw [hst] at he
      simp only [words, linkOf_bit, Option.bind_eq_bind, Option.bind_some] at he
      have hlb' := hp'.split.1
      obtain ⟨P, Q, R, hXb', hIP, hVR, hR0, hRp⟩ := hp'.split_ahead
      obtain ⟨hZ1, hZN, hZcp, hb'Z⟩ := hp'.cp h.good
      have hlt := B.par_lt b hlb.1 (h.good.root b hlb).1
      have h0 := h.stack (words B.N G.o fr)
      have op0 : Open (s.setG { s.p.g with stack := words B.N G.o fr }) (b + B.N) (G.X b) G.o := op.congr rfl
      have hr0 : ∀ k, G.Live B.N k → k ≠ b → Ring (s.setG { s.p.g with stack := words B.N G.o fr }) (k + B.N) (G.X k) G.o :=
        fun k hk hkb => (hr k hk hkb).congr (s' := s.setG { s.p.g with stack := words B.N G.o fr }) (fun _ _ _ => rfl) fun _ _ => rfl
      obtain ⟨s1, he1, h1, op1, hr1, vk1, st1, k1⟩ := h0.mergeOne hlb' hlb hbZ hXb' (fun x hx => hI x (hIP x hx)) op0 hr0 hbP
      rw [he1] at he
      simp only [Option.bind_some] at he
      have hlive : ∀ k, (G.merge B.N b' Z b Q).Live B.N k ↔ G.Live B.N k ∧ k ≠ b := merge_live ⟨hZ1, hZN⟩
      have hnd : (PR Z).Nodup := h.prl.nodup Z
      have hPR1 : ∀ z k, k ∈ update PR Z ((PR Z).erase b) z ↔ k ∈ PR z ∧ k ≠ b := by
        intro z k
        by_cases hz : z = Z
        · subst hz; rw [update_self, hnd.mem_erase_iff]; exact and_comm
        · rw [update_of_ne hz]
          refine ⟨fun hk => ⟨hk, ?_⟩, And.left⟩
          rintro rfl
          exact hz ((hreg z k hk).2.symm.trans hbZ)
      have hp1 : Path I (G.merge B.N b' Z b Q) (update PR Z ((PR Z).erase b)) c0 fr b' W V := by
        have hXm : (G.merge B.N b' Z b Q).X b' = W :: (Q0 ++ Z :: Q) := by rw [merge_X_self, hQ0]; simp
        cases fr with
        | nil =>
          obtain ⟨rfl, q1, _⟩ := hp'
          refine ⟨rfl, (hlive _).2 ⟨q1, by omega⟩, [], _, hXm, ?_, by simp⟩
          rw [hV, hVR, hR0 rfl, hQ0]; simp
        | cons f fr =>
          obtain ⟨Z', c'⟩ := f
          obtain ⟨b'', q5⟩ := hRp Z' c' fr rfl
          obtain ⟨rfl, q1, q2, q3, q4, _⟩ := hp'
          have q6 := q5.cp h.good
          have q7 := B.par_lt b' q2.1 (h.good.root b' q2).1
          refine ⟨rfl, q1, (hlive _).2 ⟨q2, by omega⟩, (hPR1 _ _).2 ⟨q3, by omega⟩, ⟨_, hXm⟩, b'', R, ?_, ?_⟩
          · rw [hXm, hV, hVR, hQ0]; simp
          refine q5.mono h.good (fun _ hx => hx) (m := b') ?_ ?_ ?_ (by omega)
          · intro k hk; exact merge_X_ne (by omega)
          · intro k hk hl; exact (hlive k).2 ⟨hl, by omega⟩
          · intro z hz; exact update_of_ne (by omega) _ _
      have hop1 : Open s1 (b' + B.N) ((G.merge B.N b' Z b Q).X b') (G.merge B.N b' Z b Q).o := by
        rw [merge_X_self]; exact op1
      obtain ⟨s', t0, G', PR', t1, t2, t2', t3, t4, t5, t6, t7, t8, t9, t10, t11, t12, t13, t14, t15, t16⟩ := ih fr s1 _ _ b' h1 hp1
        (fun x hx => (hI x hx).mono (fun k hk => ((hlive k).1 hk).1) fun _ hf => hf) hop1
        (fun k hk hkb => by
          obtain ⟨a1, a2⟩ := (hlive k).1 hk
          rw [merge_X_ne hkb]; exact hr1 k a1 a2 hkb)
        (by
          obtain ⟨A, hA⟩ := hrim
          exact (hti b' hlb' (by omega)).merge B.α_α (fun c h1 h2 => B.par_lt c h1 h2) h.good hlb' hlb hbZ hXb' hA)
        (fun k hk hkb => by
          obtain ⟨a1, a2⟩ := (hlive k).1 hk
          exact (hti k a1 a2).merge_ne B.α_α h.good hlb' hlb hXb' a1 hkb a2)
        (fun z k hk => by
          obtain ⟨a1, a2⟩ := (hPR1 z k).1 hk
          obtain ⟨a3, a4⟩ := hreg z k a1
          exact ⟨(hlive k).2 ⟨a3, a2⟩, a4⟩)
        (by rw [st1]; rfl) (by simp at hl; omega)
      have hc0b : c0 ≠ b := by
        have h5 := hp'.anc' h.good
        have := B.anc_le h5 hZ1 hZN
        omega
      have hcpm : ∀ x, (G.merge B.N b' Z b Q).cp x = if G.cp x = b then b' else G.cp x := fun _ => rfl
      have hdb : ¬ G'.Live B.N b := fun hh => ((hlive b).1 (t8.live b hh)).2 rfl
      have hon : b' = c0 ∨ b' ∈ fr.map Prod.snd := by
        cases fr with
        | nil => obtain ⟨rfl, _⟩ := hp'; exact .inl rfl
        | cons f fr => obtain ⟨Z', c'⟩ := f; obtain ⟨rfl, _⟩ := hp'; exact .inr (by simp)
      have hdb' : b' ≠ c0 → ¬ G'.Live B.N b' := by
        intro hh
        obtain ⟨f, f1, f2⟩ := List.mem_map.1 (hon.resolve_left hh)
        rw [← f2]; exact t11 f f1
      have hZ' : G'.cp Z = c0 := t14 Z (by rw [hcpm, if_neg (by omega), hZcp]; exact hon)
      refine ⟨s', he.symm.trans t0, G', PR', t1, t2, t2', t3, t4, t5, t6, ?_, ?_, ?_, ?_, ?_, ?_, by simp, ?_, t15, t16⟩
      · have vk1' : VKeep s.p s1.p := ⟨vk1.parent, vk1.la, vk1.low, vk1.vis, vk1.pe, vk1.kids, vk1.fwd⟩
        exact vk1'.trans t7
      · refine ⟨fun k hk => ((hlive k).1 (t8.live k hk)).1, ?_, ?_, ?_, ?_, fun _ _ => rfl, fun _ hf => hf, fun _ hf => .inl hf⟩
        · intro k hk hkc
          have hkb : k ≠ b' := by rintro rfl; exact hdb' hkc hk
          rw [← merge_X_ne (G := G) (Z := Z) (c := b) (Q := Q) hkb]
          exact t8.X k hk hkc
        · intro x hx
          have h1 : (G.merge B.N b' Z b Q).cp x = G.cp x := by
            rw [hcpm, if_neg]; intro hh; rw [hh] at hx; exact hdb hx
          rw [← h1]; exact t8.cp x (by rw [h1]; exact hx)
        · intro k hk
          by_cases hkb : k = b
          · subst hkb
            right; rw [hbZ]; exact ⟨hZ', hbP⟩
          · exact (t8.dead k ((hlive k).2 ⟨hk, hkb⟩)).imp id fun ⟨a1, a2⟩ => ⟨a1, ((hPR1 _ _).1 a2).1⟩
        · intro z
          refine (t8.pr z).trans ?_
          by_cases hz : z = Z
          · subst hz; rw [update_self]; exact List.erase_sublist
          · rw [update_of_ne hz]
      · intro z k
        rw [t9, hPR1]
        constructor
        · rintro ⟨⟨a1, _⟩, a2⟩; exact ⟨a1, a2⟩
        · rintro ⟨a1, a2⟩
          exact ⟨⟨a1, ((hlive k).1 (t8.live k a2)).2⟩, a2⟩
      · rw [t10]
        by_cases hcb : c0 = b'
        · subst hcb
          rw [merge_X_self, hXb']
          simp [List.getLast?_append, List.getLast?_cons]
        · rw [merge_X_ne hcb]
      · intro f hf
        rcases List.mem_cons.1 hf with rfl | hf
        · exact hdb
        · exact t11 f hf
      · intro _
        cases fr with
        | nil =>
          rw [t13 rfl]
          obtain ⟨rfl, _⟩ := hp'
          rw [merge_X_self, hQ0]
          simp only [List.length_append, List.length_cons]; omega
        | cons f fr => exact t12 (by simp)
      · intro x hx
        refine t14 x ?_
        rw [hcpm]
        by_cases hxb : G.cp x = b
        · rw [if_pos hxb]; exact hon
        · rw [if_neg hxb]
          refine hx.imp id fun hh => ?_
          simp only [List.map_cons, List.mem_cons] at hh
          exact hh.resolve_left hxb

end Verif.Embed
