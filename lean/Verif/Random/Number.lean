import Verif.Random.Model

/-
Facts about `_GetRandomNumber`.
-/
namespace Verif
namespace Random

theorem ckInt_some {x : Int} (h : -2147483648 ≤ x ∧ x < 2147483648) : ckInt x = some x := by
  unfold ckInt; rw [if_pos h]

theorem ckInt_eq {x y : Int} (h : ckInt x = some y) : y = x := by
  unfold ckInt at h
  split at h
  · cases h; rfl
  · cases h

theorem number_defined {r : Nat} (hr : r < 2147483648) (h : r < 2147450626 ∨ 2147450880 < r) :
    ∃ n, addHigh ((r + r / 65536 % 65536) % 4294967296) = some n := by
  have e : r = 65536 * (r / 65536) + r % 65536 := by omega
  generalize r / 65536 = a at *
  generalize hb : r % 65536 = b at *
  have hb' : b < 65536 := by omega
  have ha : a % 65536 = a := Nat.mod_eq_of_lt (by omega)
  rw [ha, show (r + a) % 4294967296 = 65537 * a + b by omega]
  generalize hS : 65537 * a + b = S
  unfold addHigh
  split
  · exact ⟨_, rfl⟩
  · by_cases hb2 : S < 2147483393
    · rw [if_pos (by omega)]; exact ⟨_, rfl⟩
    · have : a = 32767 := by omega
      omega

theorem number_undefined {r : Nat} (h : 2147450626 ≤ r ∧ r ≤ 2147450880) :
    addHigh ((r + r / 65536 % 65536) % 4294967296) = none := by
  unfold addHigh
  rw [if_neg (by omega), if_neg (by omega)]

theorem number_bounds {r : Nat} {lo hi x : Int} (h : lo ≤ hi) (hx : number r lo hi = some x) : lo ≤ x ∧ x ≤ hi := by
  unfold number at hx
  rw [if_neg (by omega)] at hx
  cases h1 : addHigh ((r + r / 65536 % 65536) % 4294967296) with
  | none => rw [h1] at hx; simp at hx
  | some n =>
    rw [h1] at hx
    simp only [Option.bind_eq_bind, Option.bind_some] at hx
    cases h2 : ckInt (hi - lo) with
    | none => rw [h2] at hx; simp at hx
    | some w =>
      rw [h2] at hx
      simp only [Option.bind_some] at hx
      cases h3 : ckInt (w + 1) with
      | none => rw [h3] at hx; simp at hx
      | some w' =>
        rw [h3] at hx
        simp only [Option.bind_some] at hx
        have e1 := ckInt_eq h2
        have e2 := ckInt_eq h3
        have hw : 0 < w' := by omega
        cases hx
        have a := Int.emod_nonneg ((n % 134217728 : Nat) : Int) (show w' ≠ 0 by omega)
        have b := Int.emod_lt_of_pos ((n % 134217728 : Nat) : Int) hw
        omega

theorem number_some {r : Nat} (hr : r < 2147483648) (h : r < 2147450626 ∨ 2147450880 < r) {lo hi : Int}
    (hw : hi - lo + 1 < 2147483648) : ∃ x, number r lo hi = some x := by
  unfold number
  split
  · exact ⟨_, rfl⟩
  · obtain ⟨n, hn⟩ := number_defined hr h
    rw [hn, ckInt_some (x := hi - lo) (by omega)]
    simp only [Option.bind_eq_bind, Option.bind_some]
    rw [ckInt_some (by omega)]
    exact ⟨_, rfl⟩

/-- The values the addition of high bits gives for small arguments: offset `o` of block `a`. -/
theorem number_reach {a o : Nat} (ha : a ≤ 2) (ho : o < 65536) (h : o % 257 ≠ 256) (hs : 1 ≤ a → a - 1 < o)
    {lo hi : Int} (hw : hi - lo + 1 < 2147483648) (hlh : lo ≤ hi) :
    ∃ r, r < 2147450626 ∧ number r lo hi = some (((65536 * a + o : Nat) : Int) % (hi - lo + 1) + lo) := by
  have hb : ∃ b, b + b / 256 = o ∧ b < 65536 ∧ (1 ≤ a → a ≤ b) := ⟨o - o / 257, by omega, by omega, by omega⟩
  obtain ⟨b, h1, h2, h3⟩ := hb
  refine ⟨65536 * a + b - a, by omega, ?_⟩
  have e1 : ((65536 * a + b - a) + (65536 * a + b - a) / 65536 % 65536) % 4294967296 = 65536 * a + b := by
    have : a = 0 ∨ a = 1 ∨ a = 2 := by omega
    rcases this with rfl | rfl | rfl
    · omega
    · have := h3 (by omega); omega
    · have := h3 (by omega); omega
  have e2 : addHigh (65536 * a + b) = some (65536 * a + o) := by
    unfold addHigh
    rw [if_neg (by omega)]
    have : (65536 * a + b) / 256 % 256 = b / 256 := by omega
    rw [this, if_pos (by omega)]
    congr 1; omega
  unfold number
  rw [if_neg (by omega), e1, e2, ckInt_some (x := hi - lo) (by omega)]
  simp only [Option.bind_eq_bind, Option.bind_some]
  rw [ckInt_some (by omega)]
  simp only [Option.bind_some]
  rw [show (65536 * a + o) % 134217728 = 65536 * a + o by omega]
  rfl

/-- Every value of a range of at most 46341 values is returned for some rand() value. -/
theorem number_onto {lo hi t : Int} (h : hi - lo < 46341) (ht : lo ≤ t ∧ t ≤ hi) :
    ∃ r, r < 2147450626 ∧ number r lo hi = some t := by
  obtain ⟨w, hw⟩ : ∃ w : Nat, (w : Int) = hi - lo + 1 := ⟨(hi - lo + 1).toNat, by omega⟩
  obtain ⟨s, hs⟩ : ∃ s : Nat, (s : Int) = t - lo := ⟨(t - lo).toNat, by omega⟩
  have hsw : s < w := by omega
  have hw2 : w ≤ 46341 := by omega
  have key : ∀ {a o k : Nat}, 65536 * a + o = s + k * w → a ≤ 2 → o < 65536 → o % 257 ≠ 256 → (1 ≤ a → a - 1 < o) →
      ∃ r, r < 2147450626 ∧ number r lo hi = some t := by
    intro a o k he ha ho hm hn
    obtain ⟨r, h1, h2⟩ := number_reach ha ho hm hn (lo := lo) (hi := hi) (by omega) (by omega)
    refine ⟨r, h1, ?_⟩
    rw [h2, he, ← hw]
    have : ((s + k * w : Nat) : Int) % (w : Int) = s := by
      rw [← Int.natCast_emod, Nat.add_mul_mod_self_right, Nat.mod_eq_of_lt hsw]
    rw [this, hs]
    congr 1; omega
  by_cases h0 : s % 257 = 256
  · by_cases h1 : s + w < 65536
    · by_cases h2 : (s + w) % 257 = 256
      · -- the width is a multiple of 257: the first value of the next block
        obtain ⟨k, hk1, hk2⟩ : ∃ k, s + k * w < 65536 ∧ 65536 ≤ s + k * w + w := by
          refine ⟨(65535 - s) / w, ?_, ?_⟩
          · have := Nat.div_mul_le_self (65535 - s) w
            omega
          · have := Nat.lt_div_mul_add (a := 65535 - s) (b := w) (by omega)
            omega
        have hd : (257 : Nat) ∣ w := by omega
        have hd' : (257 : Nat) ∣ k * w := Nat.dvd_mul_left_of_dvd hd k
        refine key (a := 1) (o := s + k * w + w - 65536) (k := k + 1) ?_ (by omega) (by omega) (by omega) (by omega)
        rw [Nat.add_mul]; omega
      · exact key (a := 0) (o := s + w) (k := 1) (by omega) (by omega) h1 h2 (by omega)
    · by_cases h2 : s + w = 65536
      · exact key (a := 1) (o := w) (k := 2) (by omega) (by omega) (by omega) (by omega) (by omega)
      · by_cases h3 : (s + w - 65536) % 257 = 256
        · by_cases h4 : s + 2 * w < 131072
          · exact key (a := 1) (o := s + 2 * w - 65536) (k := 2) (by omega) (by omega) (by omega) (by omega) (by omega)
          · exact key (a := 2) (o := s + 3 * w - 131072) (k := 3) (by omega) (by omega) (by omega) (by omega) (by omega)
        · exact key (a := 1) (o := s + w - 65536) (k := 1) (by omega) (by omega) (by omega) h3 (by omega)
  · exact key (a := 0) (o := s) (k := 0) (by omega) (by omega) (by omega) h0 (by omega)

end Random
end Verif
