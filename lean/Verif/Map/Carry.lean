import Verif.Map.Perm

/-
Plane maps under a renaming of the darts.
-/
namespace Verif.Map
open Equiv Equiv.Perm

variable {D D' : Type*} [Finite D] [Finite D']

theorem cls_equiv {r : Setoid D} {r' : Setoid D'} (e : D ≃ D') (h1 : ∀ a b, r a b → r' (e a) (e b))
    (h2 : ∀ a b, r' a b → r (e.symm a) (e.symm b)) : cls r = cls r' := by
  unfold cls
  refine Nat.card_congr (Quotient.congr e ?_)
  intro a b
  refine ⟨h1 a b, fun h => ?_⟩
  have := h2 _ _ h
  simpa using this

theorem same_equiv {f : Perm D} {f' : Perm D'} (e : D ≃ D') (h : ∀ d, e (f d) = f' (e d)) :
    SameCycle.setoid f ≤ Setoid.comap e (SameCycle.setoid f') := by
  refine cycle_le ?_
  intro x
  show SameCycle f' (e x) (e (f x))
  rw [h]; exact ⟨1, by simp⟩

theorem back_equiv {f : Perm D} {f' : Perm D'} (e : D ≃ D') (h : ∀ d, e (f d) = f' (e d)) (d : D') :
    e.symm (f' d) = f (e.symm d) := by
  rw [Equiv.symm_apply_eq, h, Equiv.apply_symm_apply]

theorem cyc_equiv {f : Perm D} {f' : Perm D'} (e : D ≃ D') (h : ∀ d, e (f d) = f' (e d)) : cyc f = cyc f' :=
  cls_equiv e (fun _ _ hs => same_equiv e h hs) (fun _ _ hs => same_equiv e.symm (back_equiv e h) hs)

theorem joined_equiv {σ α : Perm D} {σ' α' : Perm D'} (e : D ≃ D') (h1 : ∀ d, e (σ d) = σ' (e d)) (h2 : ∀ d, e (α d) = α' (e d)) :
    joined σ α ≤ Setoid.comap e (joined σ' α') :=
  sup_le (fun _ _ h => (le_sup_left : SameCycle.setoid σ' ≤ joined σ' α') (same_equiv e h1 h))
    (fun _ _ h => (le_sup_right : SameCycle.setoid α' ≤ joined σ' α') (same_equiv e h2 h))

theorem Flat.equiv {σ α : Perm D} {σ' α' : Perm D'} (e : D ≃ D') (h1 : ∀ d, e (σ d) = σ' (e d)) (h2 : ∀ d, e (α d) = α' (e d))
    (h : Flat σ α) : Flat σ' α' := by
  have h3 : cyc (σ * α) = cyc (σ' * α') := cyc_equiv e fun d => by rw [mul_apply, mul_apply, h1, h2]
  have h4 : cls (joined σ α) = cls (joined σ' α') := cls_equiv e (fun _ _ hs => joined_equiv e h1 h2 hs)
    (fun _ _ hs => joined_equiv e.symm (back_equiv e h1) (back_equiv e h2) hs)
  unfold Flat at *
  rw [← cyc_equiv e h1, ← cyc_equiv e h2, ← h3, ← h4, ← Nat.card_congr e]
  exact h

end Verif.Map
