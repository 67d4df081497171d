import Verif.Test.Euler

/-
Plane maps are plane embeddings.
-/
namespace Verif
namespace Test
open Graph Map Equiv Equiv.Perm Props DFS

theorem exists_transversal_below {dom : Nat → Prop} {r : Nat → Nat → Prop} (hr : ∀ a, r a a) (hs : ∀ a b, r a b → r b a) (n : Nat) :
    ∃ l, Transversal (fun x => dom x ∧ x < n) r l := by
  classical
  induction n with
  | zero => exact ⟨[], by simp, by simp, fun x hx => absurd hx.2 (by omega)⟩
  | succ n ih =>
    obtain ⟨l, hl⟩ := ih
    by_cases hn : dom n ∧ ∀ a ∈ l, ¬ r a n
    · refine ⟨n :: l, ?_, ?_, ?_⟩
      · intro x hx
        rcases List.mem_cons.1 hx with rfl | hx
        · exact ⟨hn.1, by omega⟩
        · have := hl.mem x hx; exact ⟨this.1, by omega⟩
      · rw [List.pairwise_cons]
        exact ⟨fun a ha hc => hn.2 a ha (hs _ _ hc), hl.apart⟩
      · rintro x ⟨h1, h2⟩
        by_cases hx : x = n
        · exact ⟨n, by simp, hx ▸ hr _⟩
        · obtain ⟨a, ha, h3⟩ := hl.all x ⟨h1, by omega⟩
          exact ⟨a, by simp [ha], h3⟩
    · refine ⟨l, ?_, hl.apart, ?_⟩
      · intro x hx
        have := hl.mem x hx; exact ⟨this.1, by omega⟩
      · rintro x ⟨h1, h2⟩
        by_cases hx : x = n
        · subst hx
          have : ¬ ∀ a ∈ l, ¬ r a x := fun hc => hn ⟨h1, hc⟩
          push Not at this
          exact this
        · exact hl.all x ⟨h1, by omega⟩

theorem exists_transversal_of {dom : Nat → Prop} {r : Nat → Nat → Prop} (hr : ∀ a, r a a) (hs : ∀ a b, r a b → r b a) (n : Nat)
    (hn : ∀ x, dom x → x < n) : ∃ l, Transversal dom r l := by
  obtain ⟨l, hl⟩ := exists_transversal_below (dom := dom) hr hs n
  exact ⟨l, fun x hx => (hl.mem x hx).1, hl.apart, fun x hx => hl.all x ⟨hx, hn x hx⟩⟩

theorem sameFace_symm {g : Graph} {rot : Nat → List Nat} (h : Inv g rot) {a b : Nat} (hs : SameFace g a b) : SameFace g b a := by
  rw [sameFace_iff h] at hs ⊢
  rcases hs with rfl | ⟨d, d', h1, h2, h3⟩
  · exact .inl rfl
  · exact .inr ⟨d', d, h2, h1, h3.symm⟩

theorem exists_counted {s : PGraph} {rot : Nat → List Nat} (h : PInv s rot) : ∃ F C D, Counted s F C D := by
  obtain ⟨F, hF⟩ := exists_transversal_of (dom := Live s.g) (r := SameFace s.g) (fun _ => .refl _)
    (fun _ _ => sameFace_symm h.inv) s.g.inUse (fun x hx => by
      obtain ⟨u, hu⟩ := (live_iff h.inv).1 hx
      exact h.inv.below u x hu)
  obtain ⟨C, hC⟩ := exists_transversal_of (dom := IsPrimary s) (r := Joined s.g) (fun _ => .refl _)
    (fun _ _ => joined_symm h.inv) (s.g.N + 1) (fun x hx => by have := hx.2; omega)
  obtain ⟨D, hD⟩ := exists_transversal_of (dom := fun v => IsPrimary s v ∧ ∃ w, Adjacent s.g v w) (r := Joined s.g) (fun _ => .refl _)
    (fun _ _ => joined_symm h.inv) (s.g.N + 1) (fun x hx => by have := hx.1.2; omega)
  exact ⟨F, C, D, hF, hC, hD⟩

theorem flat_plane {s : PGraph} {rot : Nat → List Nat} (h : PInv s rot) (hf : Flat (sg h.inv.weak) (al h.inv.weak)) :
    PlaneEmbedding s := by
  classical
  have := dart_finite h.inv.weak
  obtain ⟨F, C, D, hc⟩ := exists_counted h
  refine ⟨F, C, D, hc, ?_⟩
  have h2 := cyc_involution (al_al h.inv.weak) (al_ne h.inv.weak)
  have h3 := face_count h.inv hc.faces
  have h4 := comp_count h hc.edged
  have h5 := vert_count h
  have h6 := comps_split h hc.comps hc.edged
  have h7 := verts_split (s := s) (rot := rot)
  have h8 := card_darts h.inv
  unfold ph at h3
  unfold Flat at hf
  omega

end Test
end Verif
