import Verif.Embed.IsoDelete

/-
The outer face of the blocked component as a cycle, and steps along it.
-/
namespace Verif.Isolate
open Verif Verif.Embed Verif.Graph Verif.EGraph Verif.Random Verif.Test Verif.Map Equiv Equiv.Perm Function

variable {A : Nat → Prop} {g g' : Graph} {L L' : Nat → List Nat} {fo ba : Nat → Nat} {R : Nat} {xs : List Nat}

/-- The vertices `R :: xs` are a cycle: `fo` is the arc to the next one and `ba` the arc to the one before, and these are the ends of
the lists. -/
structure Cyc (L : Nat → List Nat) (fo ba : Nat → Nat) (R : Nat) (xs : List Nat) : Prop where
  nodup : (R :: xs).Nodup
  chain : List.IsChain (fun a b => twin (fo a) = ba b) (R :: xs ++ [R])
  ends : ∀ x ∈ R :: xs, ∃ t, endIn t (L x) = fo x ∧ endIn (!t) (L x) = ba x
  ne : ∀ x ∈ R :: xs, L x ≠ []

theorem Cyc.rev (h : Cyc L fo ba R xs) : Cyc L ba fo R xs.reverse := by
  refine ⟨?_, ?_, ?_, ?_⟩
  · have := h.nodup
    rw [List.nodup_cons] at this ⊢
    exact ⟨fun hh => this.1 (List.mem_reverse.1 hh), List.nodup_reverse.2 this.2⟩
  · have h1 := List.isChain_reverse.2 (show List.IsChain (fun a b => twin (ba b) = fo a) (R :: xs ++ [R]) from
      h.chain.imp fun a b hab => by rw [← hab, twin_twin])
    have : (R :: xs ++ [R]).reverse = R :: xs.reverse ++ [R] := by simp
    rw [this] at h1
    exact h1
  · intro x hx
    obtain ⟨t, h1, h2⟩ := h.ends x (by simpa using hx)
    exact ⟨!t, h2, by rw [Bool.not_not]; exact h1⟩
  · intro x hx; exact h.ne x (by simpa using hx)

theorem Cyc.congr (h : Cyc L fo ba R xs) (hL : ∀ x, L' x = L x ∨ L' x = (L x).reverse) : Cyc L' fo ba R xs := by
  have he : ∀ (t : Bool) (l : List Nat), endIn t l.reverse = endIn (!t) l := by intro t l; cases t <;> simp [endIn, dir]
  refine ⟨h.nodup, h.chain, ?_, ?_⟩
  · intro x hx
    obtain ⟨t, h1, h2⟩ := h.ends x hx
    rcases hL x with hh | hh
    · exact ⟨t, by rw [hh]; exact h1, by rw [hh]; exact h2⟩
    · refine ⟨!t, by rw [hh, he, Bool.not_not]; exact h1, by rw [hh, he, Bool.not_not]; exact h2⟩
  · intro x hx
    have := h.ne x hx
    rcases hL x with hh | hh
    · rw [hh]; exact this
    · rw [hh]; simpa using this

theorem endIn_mem' {l : List Nat} (h : l ≠ []) (b : Bool) : endIn b l ∈ l := by
  cases b with
  | false => cases l with
    | nil => exact absurd rfl h
    | cons a t => exact List.mem_cons_self
  | true =>
    unfold endIn dir
    simp only [if_true]
    cases hl : l.reverse with
    | nil => exact absurd (List.reverse_eq_nil_iff.1 hl) h
    | cons a t => rw [← List.mem_reverse, hl]; exact List.mem_cons_self

theorem Cyc.fo_mem (h : Cyc L fo ba R xs) {x : Nat} (hx : x ∈ R :: xs) : fo x ∈ L x := by
  obtain ⟨t, h1, _⟩ := h.ends x hx
  rw [← h1]; exact endIn_mem' (h.ne x hx) t
theorem Cyc.ba_mem (h : Cyc L fo ba R xs) {x : Nat} (hx : x ∈ R :: xs) : ba x ∈ L x := by
  obtain ⟨t, _, h1⟩ := h.ends x hx
  rw [← h1]; exact endIn_mem' (h.ne x hx) _

theorem mem_cyc {P Q : List Nat} {a : Nat} (h : R :: xs ++ [R] = P ++ a :: Q) : a ∈ R :: xs := by
  have : a ∈ R :: xs ++ [R] := by rw [h]; simp
  simp at this ⊢; tauto

/-- A step along the outer face. -/
theorem Cyc.step (k : Lk A g L) (h : Cyc L fo ba R xs) {P Q : List Nat} {a b : Nat} (hab : R :: xs ++ [R] = P ++ a :: b :: Q) {prev : Bool}
    (hp : endIn (!prev) (L a) = fo a) : Ens (extNext g a prev) fun r => r.1 = b ∧ endIn r.2 (L b) = ba b ∧ endIn (!r.2) (L b) = fo b := by
  have ha : a ∈ R :: xs := mem_cyc hab
  have hb : b ∈ R :: xs := mem_cyc (P := P ++ [a]) (Q := Q) (by rw [hab]; simp)
  have htw : twin (fo a) = ba b := by
    have := h.chain
    rw [hab, List.isChain_append] at this
    exact (List.isChain_cons_cons.1 this.2.1).1
  have hv : ∀ x ∈ R :: xs, ∀ t, Ens (g.getArc x t) fun e => e = endIn t (L x) := fun x hx t =>
    (getArc_val x t).mono fun e he => he.2.trans (k.links.vlink x t he.1)
  unfold extNext
  refine Ens.bind (hv a ha _) fun e he => Ens.bind (getNbr_val e) fun n hn => ?_
  rw [hp] at he
  have hnb : n = b := by
    have := k.owner b (ba b) (h.ba_mem hb)
    rw [hn, he, ← this, ← htw, twin_twin]
  subst hnb
  refine Ens.bind (hv n hb _) fun f hf => Ens.bind (hv n hb _) fun l hl => Ens.pure ⟨rfl, ?_⟩
  obtain ⟨t, h1, h2⟩ := h.ends n hb
  by_cases hfl : f ≠ l
  · rw [if_pos hfl, he, htw]
    by_cases hbf : ba n = f
    · rw [if_pos hbf]
      cases t with
      | false => exact absurd (hbf.symm.trans (h2.symm.trans hl.symm)) hfl
      | true => exact ⟨h2, h1⟩
    · rw [if_neg hbf]
      cases t with
      | false => exact ⟨h2, h1⟩
      | true => exact absurd (h2.symm.trans hf.symm) hbf
  · rw [if_neg hfl]
    have hfl := not_not.1 hfl
    have hall : ∀ t, endIn t (L n) = f := by intro t; cases t; exact hf.symm; exact (hfl.trans hl).symm
    rw [hall] at h1 h2
    exact ⟨(hall _).trans h2, (hall _).trans h1⟩

section Tight
variable {B : Base} {Pl : Plan B} {G : Gh B.D} {s : EGraph} {fw PR : Nat → List Nat} {v c : Nat}

/-- The list of the ideal state. -/
def lst (G : Gh B.D) (x : Nat) : List Nat := (G.L x).map (·.1)

theorem orbit_chain {D : Type} {f : Perm D} {r : D} {T : List D} (h : Orbit f (r :: T)) : List.IsChain (fun a b => f a = b) (r :: T ++ [r]) := by
  rw [List.isChain_iff_forall_rel_of_append_cons_cons]
  intro a b l₁ l₂ he
  rcases List.eq_nil_or_concat l₂ with rfl | ⟨l, z, rfl⟩
  · have h1 : r :: T = l₁ ++ [a] ∧ [r] = [b] := by
      have : r :: T ++ [r] = (l₁ ++ [a]) ++ [b] := by rw [he]; simp
      have := List.append_inj' this rfl
      exact this
    obtain ⟨h1, h2⟩ := h1
    have hb : r = b := by simpa using h2
    subst hb
    cases l₁ with
    | nil =>
      simp only [List.nil_append, List.cons.injEq] at h1
      obtain ⟨rfl, rfl⟩ := h1
      have := h
      rw [orbit_cons] at this
      simpa using this
    | cons y l =>
      simp only [List.cons_append, List.cons.injEq] at h1
      obtain ⟨rfl, rfl⟩ := h1
      exact h.last
  · have h1 : r :: T = l₁ ++ a :: b :: l := by
      have : r :: T ++ [r] = (l₁ ++ a :: b :: l) ++ [z] := by rw [he]; simp
      exact (List.append_inj' this rfl).1
    rw [h1] at h
    exact h.next

/-- The outer face of a separate component is a cycle through all its vertices. -/
theorem cyc_of_tight (st : St Pl s G fw PR v) (hap : B.ap = true) (hc : G.Live B.N c) (ht : G.Tight B.α B.N c) :
    Cyc (lst G) (fun x => endIn false (lst G x)) (fun x => endIn true (lst G x)) (c + B.N) (G.X c) := by
  obtain ⟨r, l, T, h1, h2, h3, h4, h5⟩ := ht
  simp only [List.nil_append] at h2 h3
  have hg := st.good
  have hr : r ∈ G.L (c + B.N) := by rw [h1]; simp
  have hTX : ∀ d ∈ T, some d ∈ (G.X c).map G.hd := by
    intro d hd
    obtain ⟨x, hx, hh⟩ := h5 d hd
    have hm := hd_mem hh
    have hl := hg.face_lab B.α_α h2 (List.mem_cons_self) hr (List.mem_cons_of_mem r hd)
    rw [lab_eq hg.core.disj hm, (hg.root c hc).2.2] at hl
    have hcp : G.cp x = c := Set.singleton_injective hl
    have h1x := (hg.dom x (List.ne_nil_of_mem hm)).1
    have := st.all hap x h1x hx (by rw [hcp]; exact hc)
    rw [hcp] at this
    rw [← hh]; exact List.mem_map_of_mem this
  have hT : (G.X c).map G.hd = T.map some := by
    refine h4.eq_of_length_le ?_
    refine (List.Nodup.subperm ((List.nodup_map_iff (Option.some_injective _)).2 (List.nodup_cons.1 h3).2) ?_).length_le
    intro o ho
    obtain ⟨d, hd, rfl⟩ := List.mem_map.1 ho
    exact hTX d hd
  have hbd := hg.bd c hc
  have hhd : ((c + B.N) :: G.X c ++ [c + B.N]).map G.hd = (r :: T ++ [r]).map some := by
    have : G.hd (c + B.N) = some r := by unfold Gh.hd; rw [h1]; rfl
    simp only [List.cons_append, List.map_cons, List.map_append, List.map_nil, this, hT]
  have hne : ∀ x ∈ (c + B.N) :: G.X c, G.L x ≠ [] := by
    intro x hx
    rcases List.mem_cons.1 hx with rfl | hx
    · exact hc.2
    · obtain ⟨p, z, hz⟩ := hd_some hg hc hx
      rw [hz]; simp
  refine ⟨?_, ?_, ?_, ?_⟩
  · refine List.nodup_cons.2 ⟨fun hh => ?_, hg.X_nodup hc⟩
    have := hbd _ hh
    have := hc.1
    omega
  · have h6 : List.IsChain (fun o o' : Option B.D => ∃ d d', o = some d ∧ o' = some d' ∧ (G.σ * B.α) d = d') ((r :: T ++ [r]).map some) := by
      rw [List.isChain_map]
      exact (orbit_chain h2).imp fun a b hab => ⟨a, b, rfl, rfl, hab⟩
    rw [← hhd, List.isChain_map] at h6
    refine h6.imp ?_
    rintro a b ⟨d, d', ha, hb, he⟩
    have hfa : endIn false (lst G a) = d.1 := by
      unfold Gh.hd at ha
      unfold lst endIn
      cases hL : G.L a with
      | nil => rw [hL] at ha; cases ha
      | cons y t => rw [hL] at ha; cases ha; rfl
    show twin (endIn false (lst G a)) = endIn true (lst G b)
    rw [hfa]
    unfold Gh.hd at hb
    have ho := hg.core.orbit b
    have key : ∃ z, (G.L b).reverse.head? = some z ∧ G.σ z = d' := by
      cases hL : G.L b with
      | nil => rw [hL] at hb; cases hb
      | cons y t =>
        rw [hL] at hb ho
        cases hb
        rcases List.eq_nil_or_concat t with rfl | ⟨t', z, rfl⟩
        · refine ⟨d', rfl, ?_⟩
          rw [orbit_cons] at ho
          simpa using ho
        · rw [List.concat_eq_append] at ho ⊢
          exact ⟨z, by simp, ho.last⟩
    obtain ⟨z, hz, hσ⟩ := key
    have hzα : z = B.α d := G.σ.injective (hσ.trans he.symm)
    have : endIn true (lst G b) = z.1 := by
      unfold lst endIn
      simp only [dir_true, ← List.map_reverse]
      cases hL : (G.L b).reverse with
      | nil => rw [hL] at hz; cases hz
      | cons y t => rw [hL] at hz; cases hz; rfl
    rw [this, hzα]; rfl
  · intro x hx; exact ⟨false, rfl, rfl⟩
  · intro x hx
    unfold lst
    rw [ne_eq, List.map_eq_nil_iff]; exact hne x hx

end Tight

end Verif.Isolate
