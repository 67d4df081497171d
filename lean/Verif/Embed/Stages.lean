import Verif.Embed.Sound
import Verif.Spec.Embed

/-
The partial embeddings between the steps of the embedder.
-/
namespace Verif.Embed
open Verif Verif.Graph Verif.EGraph Verif.DFS Equiv Equiv.Perm Verif.Map Function Verif.Props

theorem orbit_follows {D : Type} {σ : Perm D} {l : List D} (h : Orbit σ l) {a b : D} {f : D → Nat} (hf : Injective f) (hn : l.Nodup)
    (hab : Follows (l.map f) (f a) (f b)) : σ a = b := by
  have ha : f a ∈ l.map f := by
    rcases hab with ⟨A, B, he⟩ | ⟨h1, h2⟩
    · rw [he]; simp
    · exact List.mem_of_getLast? h1
  obtain ⟨a', ha', he⟩ := List.mem_map.1 ha
  obtain rfl := hf he
  obtain ⟨i, hi, e1⟩ := List.getElem_of_mem ha'
  have hi' : i < (l.map f).length := by rw [List.length_map]; exact hi
  have e2 : f a' = (l.map f)[i] := by rw [List.getElem_map, e1]
  rw [e2, Test.follows_iff (hn.map hf) hi'] at hab
  rw [List.getElem_map] at hab
  have hab := hf hab
  have h1 : (l.map σ)[i]? = (l.rotate 1)[i]? := by rw [h]
  rw [List.getElem?_eq_getElem (by simpa using hi), List.getElem?_eq_getElem (by simpa using hi), List.getElem_map,
    List.getElem_rotate, e1] at h1
  rw [Option.some.inj h1, hab]
  simp only [List.length_map]

theorem Core.planeLists {B : Base} {σ : Perm B.D} {L : Nat → List B.D} (h : Core B.α σ L) : PlaneLists B.A (lists L) := by
  refine ⟨σ, B.α, fun _ => rfl, ?_, ?_, h.flat⟩
  · intro x a b hab
    exact orbit_follows (h.orbit x) (f := Subtype.val) Subtype.val_injective (h.nodup x) hab
  · intro d hd
    refine h.out d fun x hx => hd x ?_
    exact mem_lists.2 ⟨d.2, hx⟩

theorem planePart_of {B : Base} {s : EGraph} {σ : Perm B.D} {L : Nat → List B.D} {o : Nat → Bool} (hf : Fix B.g0 s.p.g) (h : Core B.α σ L)
    (hl : Links s.p.g fun x => dir (o x) (lists L x)) (ho : ∀ x d, d ∈ L x → (s.p.g.E (twin d.1)).nbr = x)
    (hp : ∀ x d, d ∈ L x → ∃ y, B.α d ∈ L y) : PlanePart B.A s.p.g o (lists L) := by
  have hr : ∀ e, B.A e → e < s.p.g.eSize := fun e he => by rw [hf.eSize]; exact (B.rng e he).2
  refine ⟨?_, ?_, ?_, ?_, h.planeLists⟩
  · intro x hx
    have := hasList hl (vSize_iff.1 hx).2
    cases hox : o x <;> simpa [dir, hox] using this
  · intro x e he
    obtain ⟨hA, hm⟩ := mem_lists.1 he
    refine ⟨vSize_iff.2 (hl.vert x e (mem_dir.2 he)), hA, ?_⟩
    show s.p.g.getNbr (twin e) = some x
    rw [getNbr_eq (hr _ (B.tw e hA)), ho x _ hm]
  · intro x e he
    obtain ⟨hA, hm⟩ := mem_lists.1 he
    obtain ⟨y, hy⟩ := hp x _ hm
    have := ho y _ hy
    rw [B.α_val, twin_twin] at this
    refine ⟨y, by rw [getNbr_eq (hr e hA), this], ?_⟩
    exact mem_lists.2 ⟨B.tw e hA, hy⟩
  · intro x
    have := hl.nodup x
    cases hox : o x <;> simpa [dir, hox] using this

end Verif.Embed
