import Verif.Util.StrBuf
import Mathlib.Data.List.Basic

/-
Property theorems C46 (string buffers append exactly) and C58 (read position).
-/
namespace Verif.Props
open Verif.SB

/-- The buffer holds exactly the text `t`: terminated inside the allocation, with the right size
and capacity. -/
structure HoldsText (b : StrBuf) (t : List Nat) : Prop where
  text : ∃ rest, b.buf = t ++ 0 :: rest
  noNul : 0 ∉ t
  size : b.size = t.length
  alloc : b.buf.length = b.cap + 1

/-- A C string literal: the bytes and a terminator, then anything. -/
def IsCStr (s t : List Nat) : Prop := 0 ∉ t ∧ ∃ rest, s = t ++ 0 :: rest

theorem cstr_append {t rest : List Nat} (h : 0 ∉ t) : cstr (t ++ 0 :: rest) = some t := by
  induction t with
  | nil => rfl
  | cons a t ih =>
    have : a ≠ 0 := fun e => h (by simp [e])
    simp [cstr, this, ih (fun hm => h (by simp [hm]))]

theorem HoldsText.le {b t} (h : HoldsText b t) : t.length ≤ b.cap := by
  obtain ⟨rest, hr⟩ := h.text
  have := h.alloc
  rw [hr] at this
  simp at this
  omega

theorem strcpy_eq {dst s t : List Nat} {off : Nat} (hs : IsCStr s t)
    (hl : off + t.length + 1 ≤ dst.length) :
    strcpy dst off s = some (dst.take off ++ t ++ [0] ++ dst.drop (off + t.length + 1)) := by
  obtain ⟨h0, rest, rfl⟩ := hs
  simp only [strcpy, cstr_append h0]
  rw [if_pos hl]

theorem grow_ok (junk : Nat → Nat) {b t} (h : HoldsText b t) (n : Nat) :
    ∃ b', grow junk b n = some b' ∧ HoldsText b' t ∧ b'.size + n ≤ b'.cap ∧ b'.readPos = b.readPos := by
  have hle := h.le
  have hsz := h.size
  generalize hL : (if b.size + n > 2 * b.cap then b.size + n else 2 * b.cap) = L
  have hL1 : b.size + n ≤ L := by
    rw [← hL]; split <;> omega
  have hm : (malloc junk (L + 1)).length = L + 1 := by simp [malloc]
  have hc : IsCStr b.buf t := ⟨h.noNul, h.text⟩
  have := strcpy_eq (dst := malloc junk (L + 1)) (off := 0) hc (by omega)
  refine ⟨{ b with buf := (malloc junk (L + 1)).take 0 ++ t ++ [0] ++ (malloc junk (L + 1)).drop (0 + t.length + 1), cap := L },
    by simp only [grow, hL, this]; rfl,
    ⟨⟨(malloc junk (L + 1)).drop (0 + t.length + 1), by simp⟩, h.noNul, h.size, ?_⟩, hL1, rfl⟩
  simp only [List.length_append, List.length_take, List.length_drop, List.length_singleton, hm]
  omega

theorem concat_ok (junk : Nat → Nat) {b t} (h : HoldsText b t) {s u : List Nat} (hs : IsCStr s u)
    (ok : Bool) :
    (∃ b', concat junk ok b s = some (b', true) ∧ HoldsText b' (t ++ u) ∧ b'.readPos = b.readPos) ∨
    ok = false ∧ b.cap < t.length + u.length ∧ concat junk ok b s = some (b, false) := by
  have hput : ∀ {b : StrBuf}, HoldsText b t → b.size + u.length ≤ b.cap →
      ∃ nb, strcpy b.buf b.size s = some nb ∧
        HoldsText { b with buf := nb, size := b.size + u.length } (t ++ u) := by
    intro b h hf
    obtain ⟨rest, hr⟩ := h.text
    have hl := h.alloc
    have hsz := h.size
    have := strcpy_eq (dst := b.buf) (off := b.size) hs (by omega)
    refine ⟨_, this, ⟨b.buf.drop (b.size + u.length + 1), ?_⟩, ?_, ?_, ?_⟩
    · have : b.buf.take b.size = t := by rw [hsz, hr]; simp
      simp only [this]; simp
    · have h1 := h.noNul
      have h2 := hs.1
      simp [h1, h2]
    · simp [hsz]
    · simp only [List.length_append, List.length_take, List.length_drop, List.length_singleton]
      omega
  have hcs : cstr s = some u := by
    obtain ⟨h0, rest, rfl⟩ := hs; exact cstr_append h0
  unfold concat
  simp only [hcs]
  by_cases hu : u.length = 0
  · rw [if_pos hu]
    have : u = [] := List.length_eq_zero_iff.1 hu
    subst this
    exact .inl ⟨b, rfl, by simpa using h, rfl⟩
  rw [if_neg hu]
  by_cases hf : b.size + u.length > b.cap
  · rw [if_pos hf]
    cases ok with
    | false => exact .inr ⟨rfl, by have := h.size; omega, rfl⟩
    | true =>
      obtain ⟨b1, h1, h2, h3, h4⟩ := grow_ok junk h u.length
      obtain ⟨nb, h5, h6⟩ := hput h2 h3
      exact .inl ⟨_, by simp [h1, h5], h6, h4⟩
  · rw [if_neg hf]
    obtain ⟨nb, h5, h6⟩ := hput h (by omega)
    exact .inl ⟨_, by simp [h5], h6, rfl⟩

theorem new_ok (junk : Nat → Nat) (cap : Nat) :
    ∃ b, new junk cap = some b ∧ HoldsText b [] ∧ b.readPos = 0 ∧ b.cap = cap := by
  refine ⟨⟨(malloc junk (cap + 1)).set 0 0, 0, cap, 0⟩, by simp [new, clearBuf, poke, malloc], ⟨?_, by simp, rfl, ?_⟩, rfl, rfl⟩
  · simp only [malloc]
    rw [List.range_succ_eq_map]
    exact ⟨_, rfl⟩
  · simp [malloc]

/-! ## C46 -/

/-- **C46 (histories).** For any initial capacity, memory content and sequence of C strings,
concatenating them one by one to a new buffer never writes outside the allocation and ends with
exactly the concatenation of their texts, terminated, with the right size. -/
theorem C46_concat_history (junk : Nat → Nat) (cap : Nat) (ss : List (List Nat × List Nat))
    (hs : ∀ p ∈ ss, IsCStr p.1 p.2) :
    ∃ b b', new junk cap = some b ∧ concats junk b (ss.map Prod.fst) = some b' ∧
      HoldsText b' (ss.map Prod.snd).flatten := by
  obtain ⟨b, h1, h2, -⟩ := new_ok junk cap
  have : ∀ (ss : List (List Nat × List Nat)), (∀ p ∈ ss, IsCStr p.1 p.2) → ∀ b t, HoldsText b t →
      ∃ b', concats junk b (ss.map Prod.fst) = some b' ∧ HoldsText b' (t ++ (ss.map Prod.snd).flatten) := by
    intro ss
    induction ss with
    | nil => intro _ b t h; exact ⟨b, rfl, by simpa using h⟩
    | cons p ss ih =>
      intro hp b t h
      rcases concat_ok junk h (hp p (by simp)) true with ⟨b1, h1, h2, -⟩ | ⟨h1, -⟩
      · obtain ⟨b2, h3, h4⟩ := ih (fun q hq => hp q (by simp [hq])) b1 _ h2
        exact ⟨b2, by simp [concats, h1, h3], by simpa using h4⟩
      · simp at h1
  obtain ⟨b', h3, h4⟩ := this ss hs b [] h2
  exact ⟨b, b', h1, h3, by simpa using h4⟩

/-- **C46 (one call).** On any buffer holding a text, sb_ConcatString and sb_ConcatChar append
exactly the given text; if the allocation fails they return NOTOK and change nothing, and that can
only happen if the text does not fit. -/
theorem C46_concat (junk : Nat → Nat) {b t} (h : HoldsText b t) {s u : List Nat} (hs : IsCStr s u)
    (ok : Bool) :
    (∃ b', concat junk ok b s = some (b', true) ∧ HoldsText b' (t ++ u)) ∨
    ok = false ∧ b.cap < t.length + u.length ∧ concat junk ok b s = some (b, false) := by
  rcases concat_ok junk h hs ok with ⟨b', h1, h2, -⟩ | h1
  · exact .inl ⟨b', h1, h2⟩
  · exact .inr h1

/-- **C46 (characters).** A non-NUL character is appended; the NUL character changes nothing. -/
theorem C46_concatChar (junk : Nat → Nat) {b t} (h : HoldsText b t) (c : Nat) :
    ∃ b', concatChar junk true b c = some (b', true) ∧ HoldsText b' (if c = 0 then t else t ++ [c]) := by
  by_cases hc : c = 0
  · subst hc; exact ⟨b, by simp [concatChar, concat, cstr], by simpa using h⟩
  · rcases C46_concat junk h (s := [c, 0]) (u := [c]) ⟨by simp [Ne.symm hc], [], rfl⟩ true with ⟨b', h1, h2⟩ | ⟨h1, -⟩
    · exact ⟨b', h1, by simpa [hc] using h2⟩
    · simp at h1

/-- **C46 (taking).** sb_TakeString hands over an array whose C string is exactly the text and
leaves a buffer holding the empty text, to which can be concatenated as before. -/
theorem C46_takeString {b t} (h : HoldsText b t) :
    ∃ a b', takeString true b = some (a, b') ∧ cstr a = some t ∧ HoldsText b' [] := by
  obtain ⟨rest, hr⟩ := h.text
  exact ⟨b.buf, _, rfl, by rw [hr]; exact cstr_append h.noNul, ⟨[], rfl⟩, by simp, rfl, rfl⟩

/-- **C46 (copies).** sb_Duplicate and sb_Copy give a buffer holding the source's text, whatever
the destination held. -/
theorem C46_copies (junk : Nat → Nat) {d s : StrBuf} {t : List Nat} (h : HoldsText s t) :
    (∃ b, duplicate junk s = some b ∧ HoldsText b t ∧ b.readPos = 0) ∧
    ∃ b, copy junk d s = some b ∧ HoldsText b t := by
  have hd : ∃ b, duplicate junk s = some b ∧ HoldsText b t ∧ b.readPos = 0 ∧ b.size = s.size ∧
      b.cap = s.cap := by
    obtain ⟨n, h1, h2, h3, h4⟩ := new_ok junk s.cap
    have hsz := h.size
    unfold duplicate
    simp only [h1, Option.bind_eq_bind, Option.bind_some]
    by_cases h0 : s.size > 0
    · rw [if_pos h0]
      have hle := h.le
      have hal := h2.alloc
      have hcp := strcpy_eq (dst := n.buf) (off := 0) (s := s.buf) ⟨h.noNul, h.text⟩ (by omega)
      simp only [hcp, Option.bind_some]
      refine ⟨_, rfl, ⟨⟨n.buf.drop (0 + t.length + 1), by simp⟩, h.noNul, hsz, ?_⟩, h3, rfl, h4⟩
      simp only [List.length_append, List.length_take, List.length_drop, List.length_singleton]
      omega
    · rw [if_neg h0]
      have : t = [] := List.length_eq_zero_iff.1 (by omega)
      subst this
      exact ⟨n, rfl, h2, h3, by rw [h2.size]; simp; omega, h4⟩
  obtain ⟨b, h1, h2, h3, h4, h5⟩ := hd
  refine ⟨⟨b, h1, h2, h3⟩, { d with buf := b.buf, size := s.size, cap := s.cap }, ?_, ?_⟩
  · simp [copy, h1]
  · exact ⟨h2.text, h2.noNul, h.size, by rw [← h5]; exact h2.alloc⟩

example : IsCStr [72, 105, 0, 99] [72, 105] ∧ HoldsText ⟨[72, 105, 0, 7], 2, 3, 0⟩ [72, 105] :=
  ⟨⟨by decide, [99], rfl⟩, ⟨[7], rfl⟩, by decide, rfl, rfl⟩

/-! ## C58: the read position -/

/-- The skipping loops stop inside the text or at its terminator. -/
theorem skipWhile_ok {p : Nat → Bool} (hp : p 0 = false) {t rest : List Nat} :
    ∀ (f pos : Nat), pos ≤ t.length → t.length < pos + f →
      ∃ k, skipWhile p (t ++ 0 :: rest) f pos = some k ∧ pos ≤ k ∧ k ≤ t.length ∧
        (∀ i, pos ≤ i → i < k → ∃ x, t[i]? = some x ∧ p x = true) ∧
        (k = t.length ∨ ∃ x, t[k]? = some x ∧ p x = false) := by
  intro f
  induction f with
  | zero => intro pos h1 h2; omega
  | succ f ih =>
    intro pos h1 h2
    simp only [skipWhile]
    by_cases hlt : pos < t.length
    · have hx : (t ++ 0 :: rest)[pos]? = some t[pos] := by
        rw [List.getElem?_append_left hlt, List.getElem?_eq_getElem hlt]
      rw [hx]
      simp only
      cases hpx : p t[pos] with
      | true =>
        simp only [if_true]
        obtain ⟨k, h3, h4, h5, h6, h7⟩ := ih (pos + 1) (by omega) (by omega)
        refine ⟨k, h3, by omega, h5, fun i hi1 hi2 => ?_, h7⟩
        by_cases hi : i = pos
        · subst hi; exact ⟨_, List.getElem?_eq_getElem hlt, hpx⟩
        · exact h6 i (by omega) hi2
      | false =>
        exact ⟨pos, by simp, (Nat.le_refl _), h1, fun i _ _ => by omega,
          .inr ⟨_, List.getElem?_eq_getElem hlt, hpx⟩⟩
    · have : pos = t.length := by omega
      subst this
      exact ⟨t.length, by simp [hp], (Nat.le_refl _), (Nat.le_refl _), fun i _ _ => by omega, .inl rfl⟩

/-- **C58 (concatenation, whitespace and integer skipping).** With the read position inside the
text or at its terminator, concatenation keeps it there, skipping whitespace stops there at the first
character that is no whitespace, skipping an integer passes an optional minus sign and digits only,
and the string read is the rest of the text. -/
theorem C58_readPos_partial (junk : Nat → Nat) {b t} (h : HoldsText b t) (hp : b.readPos ≤ t.length) :
    readString b = some (t.drop b.readPos) ∧
    (∀ s u, IsCStr s u → ∃ b', concat junk true b s = some (b', true) ∧ HoldsText b' (t ++ u) ∧
      readString b' = some (t.drop b.readPos ++ u)) ∧
    (∃ b', skipSpace b = some b' ∧ HoldsText b' t ∧ b'.readPos ≤ t.length ∧
      readString b' = some ((t.drop b.readPos).dropWhile isSpace)) ∧
    (∃ b', skipInteger b = some b' ∧ HoldsText b' t ∧ b'.readPos ≤ t.length ∧
      readString b' = some ((if (t.drop b.readPos).head? = some 45 then (t.drop b.readPos).tail
        else t.drop b.readPos).dropWhile isDigit)) := by
  have hread : ∀ {b : StrBuf} {t : List Nat}, HoldsText b t → b.readPos ≤ t.length →
      readString b = some (t.drop b.readPos) := by
    intro b t h hp
    obtain ⟨rest, hr⟩ := h.text
    unfold readString
    rw [if_pos (by rw [hr]; simp; omega), hr, List.drop_append_of_le_length hp, cstr_append]
    exact fun hm => h.noNul (List.mem_of_mem_drop hm)
  obtain ⟨rest, hr⟩ := h.text
  have hdw : ∀ (p : Nat → Bool) (pos k : Nat), pos ≤ k → k ≤ t.length →
      (∀ i, pos ≤ i → i < k → ∃ x, t[i]? = some x ∧ p x = true) →
      (k = t.length ∨ ∃ x, t[k]? = some x ∧ p x = false) →
      t.drop k = (t.drop pos).dropWhile p := by
    intro p pos k h1 h2 h3 h4
    obtain ⟨d, rfl⟩ : ∃ d, k = pos + d := ⟨k - pos, by omega⟩
    induction d generalizing pos with
    | zero =>
      rcases h4 with h4 | ⟨x, hx, hpx⟩
      · simp at h4; rw [List.drop_eq_nil_of_le (by omega)]; simp [List.drop_eq_nil_of_le (show t.length ≤ pos by omega)]
      · simp at hx
        have hlt : pos < t.length := by
          by_contra hc
          rw [List.getElem?_eq_none (by omega)] at hx; simp at hx
        rw [Nat.add_zero, List.drop_eq_getElem_cons hlt]
        rw [List.getElem?_eq_getElem hlt] at hx
        simp at hx
        rw [List.dropWhile_cons, hx, if_neg (by simp [hpx])]
    | succ d ih =>
      obtain ⟨x, hx, hpx⟩ := h3 pos (Nat.le_refl _) (by omega)
      have hlt : pos < t.length := by omega
      rw [List.drop_eq_getElem_cons hlt (l := t) (i := pos)]
      rw [List.getElem?_eq_getElem hlt] at hx
      simp at hx
      rw [List.dropWhile_cons, hx, if_pos hpx, ← ih (pos + 1) (by omega) (by omega)
        (fun i hi1 hi2 => h3 i (by omega) (by omega)) (by
          rcases h4 with h4 | h4
          · exact .inl (by omega)
          · exact .inr (by rwa [show pos + 1 + d = pos + (d + 1) by omega]))]
      congr 1; omega
  refine ⟨hread h hp, fun s u hs => ?_, ?_, ?_⟩
  · rcases concat_ok junk h hs true with ⟨b', h1, h2, h3⟩ | ⟨h1, -⟩
    · refine ⟨b', h1, h2, ?_⟩
      rw [hread h2 (by rw [h3]; simp; omega), h3, List.drop_append_of_le_length hp]
    · simp at h1
  · obtain ⟨k, h1, h2, h3, h4, h5⟩ := skipWhile_ok (p := isSpace) rfl (rest := rest)
      (b.buf.length + 1) b.readPos hp (by rw [hr]; simp; omega)
    refine ⟨{ b with readPos := k }, by rw [← hr] at h1; simp [skipSpace, h1], ⟨⟨rest, hr⟩, h.noNul, h.size, h.alloc⟩, h3, ?_⟩
    rw [hread (b := { b with readPos := k }) ⟨⟨rest, hr⟩, h.noNul, h.size, h.alloc⟩ h3]
    rw [← hdw isSpace b.readPos k h2 h3 h4 h5]
  · have hch : ∃ c, b.buf[b.readPos]? = some c ∧ (c = 45 ↔ (t.drop b.readPos).head? = some 45) := by
      by_cases hlt : b.readPos < t.length
      · refine ⟨t[b.readPos], ?_, ?_⟩
        · rw [hr, List.getElem?_append_left hlt, List.getElem?_eq_getElem hlt]
        · rw [List.head?_drop, List.getElem?_eq_getElem hlt]; simp
      · have : b.readPos = t.length := by omega
        refine ⟨0, by rw [hr, this]; simp, by rw [this]; simp⟩
    obtain ⟨c, hc, hc45⟩ := hch
    generalize hpos : (if c = 45 then b.readPos + 1 else b.readPos) = pos
    have hple : pos ≤ t.length ∧ t.drop pos = if (t.drop b.readPos).head? = some 45 then
        (t.drop b.readPos).tail else t.drop b.readPos := by
      by_cases h45 : c = 45
      · have h1 := hc45.1 h45
        rw [if_pos h45] at hpos
        rw [if_pos h1, ← hpos]
        have : b.readPos < t.length := by
          by_contra hcon
          rw [List.drop_eq_nil_of_le (by omega)] at h1; simp at h1
        refine ⟨by omega, by rw [List.tail_drop]⟩
      · rw [if_neg h45] at hpos
        rw [if_neg fun h1 => h45 (hc45.2 h1), ← hpos]
        exact ⟨hp, rfl⟩
    obtain ⟨k, h1, h2, h3, h4, h5⟩ := skipWhile_ok (p := isDigit) rfl (rest := rest)
      (b.buf.length + 1) pos hple.1 (by rw [hr]; simp; omega)
    refine ⟨{ b with readPos := k }, ?_, ⟨⟨rest, hr⟩, h.noNul, h.size, h.alloc⟩, h3, ?_⟩
    · unfold skipInteger
      rw [hc]
      simp only [hpos]
      rw [← hr] at h1
      rw [h1]; rfl
    · rw [hread (b := { b with readPos := k }) ⟨⟨rest, hr⟩, h.noNul, h.size, h.alloc⟩ h3]
      rw [hdw isDigit pos k h2 h3 h4 h5, hple.2]

/-- **C58 is false of the code**: sb_TakeString and sb_Copy leave the read position of the buffer,
and sb_ReadSkipChar passes the terminator, so the next read is outside the array although the
position was inside the text before. -/
theorem C58_readPos_false :
    (∃ b t, HoldsText b t ∧ b.readPos ≤ t.length ∧
      ∃ a b', takeString true b = some (a, b') ∧ readString b' = none) ∧
    (∃ d s t t', HoldsText d t ∧ d.readPos ≤ t.length ∧ HoldsText s t' ∧
      ∃ b', copy (fun _ => 7) d s = some b' ∧ readString b' = none) ∧
    (∃ b t, HoldsText b t ∧ b.readPos ≤ t.length ∧ readString (skipChar b) = none) := by
  refine ⟨⟨⟨[65, 66, 0], 2, 2, 2⟩, [65, 66], ⟨⟨[], rfl⟩, by decide, rfl, rfl⟩, by decide, _, _, rfl,
    by decide⟩, ⟨⟨[65, 66, 0], 2, 2, 2⟩, ⟨[67, 0], 1, 1, 0⟩, [65, 66], [67],
    ⟨⟨[], rfl⟩, by decide, rfl, rfl⟩, by decide, ⟨⟨[], rfl⟩, by decide, rfl, rfl⟩, _, rfl, by decide⟩,
    ⟨⟨[65, 0], 1, 1, 1⟩, [65], ⟨⟨[], rfl⟩, by decide, rfl, rfl⟩, by decide, by decide⟩⟩

example : HoldsText ⟨[32, 45, 49, 32, 0], 4, 4, 1⟩ [32, 45, 49, 32] ∧
    (StrBuf.readPos ⟨[32, 45, 49, 32, 0], 4, 4, 1⟩) ≤ [32, 45, 49, 32].length :=
  ⟨⟨⟨[], rfl⟩, by decide, rfl, rfl⟩, by decide⟩

end Verif.Props
