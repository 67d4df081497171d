import Verif.IO.Text
import Verif.Props.StrBuf

/-
Numbers as text: what scanf reads back from what printf writes, for files and for string buffers.
-/
namespace Verif.Text
open Verif Verif.SB Verif.Props

theorem digitsVal_snoc (l : List Nat) (d : Nat) : digitsVal (l ++ [48 + d]) = 10 * digitsVal l + d := by
  unfold digitsVal
  rw [List.foldl_append]
  simp

theorem decAux_spec : ∀ f n, n < f → digitsVal (decAux f n) = n ∧ decAux f n ≠ [] ∧ ∀ c ∈ decAux f n, isDigit c = true := by
  intro f
  induction f with
  | zero => intro n h; omega
  | succ f ih =>
    intro n h
    unfold decAux
    by_cases hn : n < 10
    · rw [if_pos hn]
      refine ⟨by simp [digitsVal], by simp, ?_⟩
      intro c hc
      simp only [List.mem_singleton] at hc
      subst hc
      simp only [isDigit, Bool.and_eq_true, decide_eq_true_eq]
      omega
    · rw [if_neg hn]
      obtain ⟨h1, h2, h3⟩ := ih (n / 10) (by omega)
      refine ⟨by rw [digitsVal_snoc, h1]; omega, by simp, ?_⟩
      intro c hc
      rw [List.mem_append] at hc
      rcases hc with hc | hc
      · exact h3 c hc
      · simp only [List.mem_singleton] at hc
        subst hc
        simp only [isDigit, Bool.and_eq_true, decide_eq_true_eq]
        omega

theorem dec_val (n : Nat) : digitsVal (dec n) = n := (decAux_spec _ n (by omega)).1
theorem dec_ne (n : Nat) : dec n ≠ [] := (decAux_spec _ n (by omega)).2.1
theorem dec_digit {n c : Nat} (h : c ∈ dec n) : isDigit c = true := (decAux_spec _ n (by omega)).2.2 c h

theorem isDigit_iff {c : Nat} : isDigit c = true ↔ 48 ≤ c ∧ c ≤ 57 := by simp [isDigit]
theorem isSpace_iff {c : Nat} : isSpace c = true ↔ c = 32 ∨ (9 ≤ c ∧ c ≤ 13) := by simp [isSpace]

theorem takeWhile_digits {l r : List Nat} (h : ∀ c ∈ l, isDigit c = true) (hr : isDigit (r.headD 0) = false) :
    (l ++ r).takeWhile isDigit = l ∧ (l ++ r).dropWhile isDigit = r := by
  induction l with
  | nil =>
    cases r with
    | nil => simp
    | cons c r => simp only [List.headD_cons] at hr; simp [hr]
  | cons a l ih =>
    have ha := h a (by simp)
    have := ih fun c hc => h c (by simp [hc])
    simp [ha, this.1, this.2]

theorem dropWhile_spaces {p r : List Nat} (h : ∀ c ∈ p, isSpace c = true) : (p ++ r).dropWhile isSpace = r.dropWhile isSpace := by
  induction p with
  | nil => rfl
  | cons a p ih =>
    have ha := h a (by simp)
    simp [ha, ih fun c hc => h c (by simp [hc])]

/-- A number has no space in front of its digits. -/
theorem decInt_head (x : Int) : ∃ c l, decInt x = c :: l ∧ isSpace c = false ∧ c ≠ 43 ∧ c ≠ 0 := by
  unfold decInt
  split
  · exact ⟨45, _, rfl, rfl, by decide, by decide⟩
  · obtain ⟨c, l, hc⟩ := List.exists_cons_of_ne_nil (dec_ne x.toNat)
    have := isDigit_iff.1 (dec_digit (n := x.toNat) (c := c) (by rw [hc]; simp))
    refine ⟨c, l, hc, ?_, by omega, by omega⟩
    cases h : isSpace c
    · rfl
    · rw [isSpace_iff] at h; omega

theorem decInt_dropSpace (x : Int) (r : List Nat) : (decInt x ++ r).dropWhile isSpace = decInt x ++ r := by
  obtain ⟨c, l, hc, h, -⟩ := decInt_head x
  rw [hc]
  simp [h]

theorem sign_digit {c : Nat} {l : List Nat} (h : isDigit c = true) : sign (c :: l) = (false, c :: l) := by
  rw [isDigit_iff] at h
  unfold sign
  split
  · next heq => simp only [List.cons.injEq] at heq; omega
  · next heq => simp only [List.cons.injEq] at heq; omega
  · rfl

theorem sign_decInt (x : Int) (r : List Nat) :
    sign (decInt x ++ r) = (decide (x < 0), dec x.natAbs ++ r) := by
  unfold decInt
  by_cases h : x < 0
  · rw [if_pos h]
    have : (-x).toNat = x.natAbs := by omega
    simp [sign, h, this]
  · rw [if_neg h]
    have : x.toNat = x.natAbs := by omega
    rw [this]
    obtain ⟨c, l, hc⟩ := List.exists_cons_of_ne_nil (dec_ne x.natAbs)
    have := dec_digit (n := x.natAbs) (c := c) (by rw [hc]; simp)
    rw [hc, List.cons_append, sign_digit this]
    simp [h]

/-- `%d` reads what `%d` wrote. -/
theorem scanInt_decInt {p r : List Nat} {x : Int} (hp : ∀ c ∈ p, isSpace c = true) (hr : isDigit (r.headD 0) = false)
    (hx : -2147483648 ≤ x ∧ x < 2147483648) : scanInt (p ++ (decInt x ++ r)) = some (r, some x) := by
  have h1 : (p ++ (decInt x ++ r)).dropWhile isSpace = decInt x ++ r := by rw [dropWhile_spaces hp, decInt_dropSpace]
  have h2 := takeWhile_digits (l := dec x.natAbs) (r := r) (fun c hc => dec_digit hc) hr
  have h3 := dec_val x.natAbs
  obtain ⟨c, l, hc⟩ := List.exists_cons_of_ne_nil (dec_ne x.natAbs)
  unfold scanInt
  rw [h1, sign_decInt]
  rw [hc] at h2 h3 ⊢
  simp only [h2.1, h2.2, h3]
  have h4 : (if decide (x < 0) = true then -((x.natAbs : Nat) : Int) else ((x.natAbs : Nat) : Int)) = x := by
    by_cases h : x < 0
    · rw [if_pos (by simp [h])]; omega
    · rw [if_neg (by simp [h])]; omega
  rw [h4]
  unfold ckInt
  rw [if_pos hx]
  rfl

/-- A source that reads the text `text t` in the state `t`. -/
structure Faithful {σ : Type} (src : Src σ) (rep : σ → List Nat → Prop) : Prop where
  skip : ∀ t c r, c ≠ 0 → rep t (c :: r) → ∃ t', src.skip t = some t' ∧ rep t' r
  index : ∀ t x r, -2147483648 ≤ x ∧ x < 2147483648 → isDigit (r.headD 0) = false → rep t (decInt x ++ r) →
    ∃ t', src.index t = some (t', some x) ∧ rep t' r
  number : ∀ t p x r, (∀ c ∈ p, isSpace c = true) → -2147483648 ≤ x ∧ x < 2147483648 → isDigit (r.headD 0) = false →
    rep t (p ++ (decInt x ++ r)) → ∃ t', src.number t = some (t', some x) ∧ rep t' (r.dropWhile isSpace)

/-- A file gives its text. -/
theorem file_faithful : Faithful file (fun t s => t = s) := by
  refine ⟨?_, ?_, ?_⟩
  · rintro t c r - rfl
    exact ⟨r, rfl, rfl⟩
  · rintro t x r hx hr rfl
    exact ⟨r, by have := scanInt_decInt (p := []) (by simp) hr hx; simpa [file] using this, rfl⟩
  · rintro t p x r hp hx hr rfl
    refine ⟨r.dropWhile isSpace, ?_, rfl⟩
    simp [file, scanInt_decInt hp hr hx]

/-- The text ahead of the read position. -/
def Ahead (b : StrBuf) (s : List Nat) : Prop := ∃ t, HoldsText b t ∧ b.readPos ≤ t.length ∧ t.drop b.readPos = s

theorem Ahead.read {b s} (h : Ahead b s) : readString b = some s := by
  obtain ⟨t, h1, h2, h3⟩ := h
  rw [← h3]; exact (C58_readPos_partial (fun _ => 0) h1 h2).1

theorem Ahead.space {b s} (h : Ahead b s) : ∃ b', skipSpace b = some b' ∧ Ahead b' (s.dropWhile isSpace) := by
  obtain ⟨t, h1, h2, h3⟩ := h
  obtain ⟨b', k1, k2, k3, k4⟩ := (C58_readPos_partial (fun _ => 0) h1 h2).2.2.1
  refine ⟨b', k1, t, k2, k3, ?_⟩
  have := (C58_readPos_partial (fun _ => 0) k2 k3).1
  rw [k4, h3] at this
  exact (Option.some.inj this).symm

theorem Ahead.integer {b s} (h : Ahead b s) :
    ∃ b', skipInteger b = some b' ∧ Ahead b' ((if s.head? = some 45 then s.tail else s).dropWhile isDigit) := by
  obtain ⟨t, h1, h2, h3⟩ := h
  obtain ⟨b', k1, k2, k3, k4⟩ := (C58_readPos_partial (fun _ => 0) h1 h2).2.2.2
  refine ⟨b', k1, t, k2, k3, ?_⟩
  have := (C58_readPos_partial (fun _ => 0) k2 k3).1
  rw [k4, h3] at this
  exact (Option.some.inj this).symm

theorem Ahead.decInt {b x r} (h : Ahead b (decInt x ++ r)) (hr : isDigit (r.headD 0) = false) :
    ∃ b', skipInteger b = some b' ∧ Ahead b' r := by
  obtain ⟨b', h1, h2⟩ := h.integer
  refine ⟨b', h1, ?_⟩
  have key : (if (Text.decInt x ++ r).head? = some 45 then (Text.decInt x ++ r).tail else Text.decInt x ++ r) = dec x.natAbs ++ r := by
    unfold Text.decInt
    by_cases hx : x < 0
    · have : (-x).toNat = x.natAbs := by omega
      rw [if_pos hx, this]; simp
    · have : x.toNat = x.natAbs := by omega
      rw [if_neg hx, this]
      obtain ⟨c, l, hc⟩ := List.exists_cons_of_ne_nil (dec_ne x.natAbs)
      have := isDigit_iff.1 (dec_digit (n := x.natAbs) (c := c) (by rw [hc]; simp))
      rw [hc, if_neg]
      simp only [List.cons_append, List.head?_cons, Option.some.injEq]
      omega
  rw [key, (takeWhile_digits (fun c hc => dec_digit hc) hr).2] at h2
  exact h2

/-- A string buffer gives the text ahead of its read position. -/
theorem string_faithful : Faithful string Ahead := by
  refine ⟨?_, ?_, ?_⟩
  · rintro b c r - ⟨t, h1, h2, h3⟩
    refine ⟨skipChar b, rfl, t, ⟨h1.text, h1.noNul, h1.size, h1.alloc⟩, ?_, ?_⟩
    · show b.readPos + 1 ≤ t.length
      have := congrArg List.length h3
      simp at this
      omega
    · show t.drop (b.readPos + 1) = r
      rw [← List.tail_drop, h3]; rfl
  · intro b x r hx hr h
    obtain ⟨b', h1, h2⟩ := h.decInt hr
    refine ⟨b', ?_, h2⟩
    have := scanInt_decInt (p := []) (by simp) hr hx
    simp only [List.nil_append] at this
    simp [string, h.read, this, h1]
  · intro b p x r hp hx hr h
    obtain ⟨b1, h1, k1⟩ := h.space
    rw [dropWhile_spaces hp, decInt_dropSpace] at k1
    obtain ⟨b2, h2, k2⟩ := k1.decInt hr
    obtain ⟨b3, h3, k3⟩ := k2.space
    refine ⟨b3, ?_, k3⟩
    have := scanInt_decInt (p := []) (by simp) hr hx
    simp only [List.nil_append] at this
    simp [string, h1, k1.read, this, h2, h3]

/-- The buffer of gp_ReadFromString. -/
theorem strBuf_ahead {s : List Nat} (h : 0 ∉ s) : Ahead (strBuf s) s :=
  ⟨s, ⟨⟨[], rfl⟩, h, rfl, by simp [strBuf]⟩, Nat.zero_le _, rfl⟩

theorem decInt_noNul (x : Int) : 0 ∉ decInt x := by
  have : ∀ n, 0 ∉ dec n := fun n hc => by have := isDigit_iff.1 (dec_digit hc); omega
  unfold decInt
  split
  · simp [this]
  · exact this _

end Verif.Text
