import Verif.Util.StrOrFile
import Verif.Spec.Reader
import Verif.Props.StrBuf

namespace Verif.SF
open Verif.SB Verif.Props

theorem through_pre : ∀ s : List Nat, throughLF s <+: s
  | [] => List.prefix_refl _
  | b :: l => by
    unfold throughLF
    split
    · exact ⟨l, rfl⟩
    · exact List.cons_prefix_cons.2 ⟨rfl, through_pre l⟩

theorem through_ne : ∀ {s : List Nat}, s ≠ [] → throughLF s ≠ []
  | [], h => absurd rfl h
  | b :: l, _ => by unfold throughLF; split <;> simp

theorem through_inner : ∀ s : List Nat, 10 ∉ (throughLF s).dropLast
  | [] => by simp [throughLF]
  | b :: l => by
    unfold throughLF
    split
    · simp
    · rename_i hb
      by_cases hl : throughLF l = []
      · rw [hl]; simp
      · rw [List.dropLast_cons_of_ne_nil hl]
        intro h
        rcases List.mem_cons.1 h with h | h
        · exact hb h.symm
        · exact through_inner l h

theorem through_full : ∀ s : List Nat, throughLF s = s ∨ (throughLF s).getLast? = some 10
  | [] => .inl rfl
  | b :: l => by
    unfold throughLF
    split
    · rename_i hb; right; rw [hb]; rfl
    · rcases through_full l with h | h
      · left; rw [h]
      · right
        have : throughLF l ≠ [] := by rintro hh; rw [hh] at h; cases h
        rw [List.getLast?_cons_of_ne_nil this, h]

theorem through_idx : ∀ {s : List Nat}, 10 ∈ s → throughLF s = s.take (s.idxOf 10 + 1)
  | [], h => absurd h List.not_mem_nil
  | b :: l, h => by
    unfold throughLF
    by_cases hb : b = 10
    · subst hb; rw [if_pos rfl]; simp
    · rw [if_neg hb, List.idxOf_cons_ne _ hb, List.take_succ_cons]
      rw [through_idx ((List.mem_cons.1 h).resolve_left fun hh => hb hh.symm)]

theorem through_none : ∀ {s : List Nat}, 10 ∉ s → throughLF s = s
  | [], _ => rfl
  | b :: l, h => by
    unfold throughLF
    rw [if_neg fun hb => h (by simp [hb]), through_none fun hh => h (by simp [hh])]

theorem nextLine_through (n : Nat) (t : List Nat) : NextLine n t (throughLF (t.take n)) := by
  refine ⟨(through_pre _).trans (List.take_prefix n t), Nat.le_trans (through_pre _).length_le (by rw [List.length_take]; omega), through_inner _, ?_⟩
  rcases through_full (t.take n) with h | h
  · rw [h]
    by_cases hn : t.length ≤ n
    · exact .inl (List.take_of_length_le hn)
    · exact .inr (.inl (by simp; omega))
  · exact .inr (.inr h)

/-- What is read of a string, with the carriage return treated as an end of line if there is no newline. -/
def strLine (s : List Nat) : List Nat := if 10 ∈ s then throughLF s else s.take (s.idxOf 13 + 1)

theorem strLine_eq {s : List Nat} (h : 13 ∉ s) : strLine s = throughLF s := by
  unfold strLine
  split
  · rfl
  · rename_i h1
    rw [through_none h1, List.idxOf_eq_length h, List.take_of_length_le (by omega)]

theorem strLine_pre (s : List Nat) : strLine s <+: s := by
  unfold strLine
  split
  · exact through_pre s
  · exact List.take_prefix _ _

theorem strLine_ne {s : List Nat} (h : s ≠ []) : strLine s ≠ [] := by
  unfold strLine
  split
  · exact through_ne h
  · cases s with
    | nil => exact absurd rfl h
    | cons a s => simp

theorem zeros (k : Nat) (j : List Nat) : ∃ j', List.replicate k 0 ++ 0 :: j = 0 :: j' := by
  cases k with
  | zero => exact ⟨j, rfl⟩
  | succ k => exact ⟨List.replicate k 0 ++ 0 :: j, by rw [List.replicate_succ]; rfl⟩

theorem copied {dst rest junk : List Nat} {n : Nat} (h0 : 0 ∉ rest) (h1 : 1 ≤ n) (h2 : n ≤ dst.length) :
    ∃ j, (do let d ← strncpy dst (rest ++ 0 :: junk) n; poke d (n - 1) 0) = some (rest.take (n - 1) ++ 0 :: j) := by
  have hw : (rest.take n ++ List.replicate (n - rest.length) 0).length = n := by simp; omega
  have e1 : strncpy dst (rest ++ 0 :: junk) n = some ((rest.take n ++ List.replicate (n - rest.length) 0) ++ dst.drop n) := by
    unfold strncpy
    rw [cstr_append h0]
    show store dst (rest.take n ++ List.replicate (n - rest.length) 0) = _
    unfold store
    rw [if_pos (by rw [hw]; exact h2), hw]
  rw [e1]
  show ∃ j, poke _ (n - 1) 0 = _
  unfold poke
  rw [if_pos (by rw [List.length_append, hw]; omega), List.set_eq_take_append_cons_drop, if_pos (by rw [List.length_append, hw]; omega)]
  rw [List.take_append_of_le_length (by rw [hw]; omega), List.take_append, List.take_take, List.take_replicate]
  obtain ⟨j, hj⟩ := zeros (min (n - 1 - (rest.take n).length) (n - rest.length)) (((rest.take n ++ List.replicate (n - rest.length) 0) ++ dst.drop n).drop (n - 1 + 1))
  refine ⟨j, ?_⟩
  rw [List.append_assoc, hj, Nat.min_eq_left (by omega)]

theorem cutAfter_eq {t j : List Nat} {d : Nat} (h0 : 0 ∉ t) :
    ∃ j', cutAfter (t ++ 0 :: j) d = if d ∈ t then some (some (t.take (t.idxOf d + 1) ++ 0 :: j')) else some none := by
  unfold cutAfter
  rw [cstr_append h0]
  by_cases hd : d ∈ t
  · have hi := List.idxOf_lt_length_of_mem hd
    refine ⟨(t ++ 0 :: j).drop (t.idxOf d + 1 + 1), ?_⟩
    show (if d ∈ t then _ else _) = _
    rw [if_pos hd, if_pos hd]
    unfold poke
    rw [if_pos (by simp; omega), List.set_eq_take_append_cons_drop, if_pos (by simp; omega), List.take_append_of_le_length (by omega)]
    rfl
  · refine ⟨[], ?_⟩
    show (if d ∈ t then _ else _) = _
    rw [if_neg hd, if_neg hd]
    rfl

/-- A container that holds a string, of which `past` is read. -/
def InStr (s : Container) (past rest : List Nat) : Prop :=
  s.file = none ∧ 0 ∉ rest ∧ s.pos = past.length ∧ ∃ junk, s.str = some (past ++ rest ++ 0 :: junk)

/-- A container that holds a file. -/
def InFile (s : Container) (rest : List Nat) : Prop := ∃ f, s.file = some f ∧ f.rest = rest

theorem InStr.here {s : Container} {past rest junk : List Nat} (hp : s.pos = past.length) :
    (past ++ rest ++ 0 :: junk)[s.pos]? = (rest ++ 0 :: junk)[0]? := by
  rw [hp, List.append_assoc, List.getElem?_append_right (Nat.le_refl _), Nat.sub_self]

theorem InStr.gets {s : Container} {past rest dst : List Nat} {n : Nat} (h : InStr s past rest) (h1 : 1 ≤ n) (h2 : n ≤ dst.length) (hr : rest ≠ []) :
    ∃ d s', fgets dst n s = some (some d, s') ∧ cstr d = some (strLine (rest.take (n - 1))) ∧
      InStr s' (past ++ strLine (rest.take (n - 1))) (rest.drop (strLine (rest.take (n - 1))).length) := by
  obtain ⟨hf, h0, hp, junk, hs⟩ := h
  obtain ⟨j, hj⟩ := copied (junk := junk) h0 h1 h2
  have h0' : 0 ∉ rest.take (n - 1) := fun hh => h0 (List.mem_of_mem_take hh)
  obtain ⟨b, r, hb⟩ := List.exists_cons_of_ne_nil hr
  have hb0 : b ≠ 0 := fun hh => h0 (by rw [hb, hh]; simp)
  obtain ⟨d1, e1, e2⟩ := Option.bind_eq_some_iff.1 hj
  have hl0 : 0 ∉ strLine (rest.take (n - 1)) := fun hh => h0' ((strLine_pre _).subset hh)
  have hcut : ∃ j', endLine (rest.take (n - 1) ++ 0 :: j) = some (strLine (rest.take (n - 1)) ++ 0 :: j') := by
    obtain ⟨j1, k1⟩ := cutAfter_eq (j := j) (d := 10) h0'
    obtain ⟨j2, k2⟩ := cutAfter_eq (j := j) (d := 13) h0'
    unfold endLine strLine
    rw [k1, k2]
    by_cases hh : 10 ∈ rest.take (n - 1)
    · refine ⟨j1, ?_⟩
      rw [if_pos hh, if_pos hh, through_idx hh]
      rfl
    · rw [if_neg hh, if_neg hh]
      by_cases h3 : 13 ∈ rest.take (n - 1)
      · rw [if_pos h3]; exact ⟨j2, rfl⟩
      · rw [if_neg h3]
        refine ⟨j, ?_⟩
        have : (rest.take (n - 1)).take ((rest.take (n - 1)).idxOf 13 + 1) = rest.take (n - 1) := by
          rw [List.idxOf_eq_length h3, List.take_of_length_le (by omega)]
        rw [this]
        rfl
  obtain ⟨j', hcut⟩ := hcut
  refine ⟨strLine (rest.take (n - 1)) ++ 0 :: j', { s with pos := s.pos + (strLine (rest.take (n - 1))).length }, ?_, cstr_append hl0, ?_⟩
  · unfold fgets
    rw [hf]
    show (match s.str with | none => _ | some m => _) = _
    rw [hs]
    dsimp only
    rw [InStr.here hp, hb]
    show (if b = 0 then _ else _) = _
    rw [if_neg hb0, if_neg (by omega), ← hb, hp, List.append_assoc, List.drop_left, e1]
    show (poke d1 (n - 1) 0).bind _ = _
    rw [e2]
    show (endLine _).bind _ = _
    rw [hcut]
    show (cstr _).bind _ = _
    rw [cstr_append hl0]
    rfl
  · refine ⟨hf, fun hh => h0 (List.mem_of_mem_drop hh), by show s.pos + _ = _; rw [hp]; simp, junk, ?_⟩
    have e : strLine (rest.take (n - 1)) ++ rest.drop (strLine (rest.take (n - 1))).length = rest := by
      obtain ⟨t, ht⟩ := (strLine_pre (rest.take (n - 1))).trans (List.take_prefix _ _)
      generalize strLine (rest.take (n - 1)) = l at ht
      rw [← ht, List.drop_left]
    rw [hs, List.append_assoc past (strLine _), e]

theorem InStr.atEnd {s : Container} {past dst : List Nat} {n : Nat} (h : InStr s past []) : fgets dst n s = some (none, s) ∧ getc s = some (-1, s) := by
  obtain ⟨hf, h0, hp, junk, hs⟩ := h
  constructor
  · unfold fgets
    rw [hf]
    show (match s.str with | none => _ | some m => _) = _
    rw [hs]
    dsimp only
    rw [InStr.here hp]
    rfl
  · unfold getc
    rw [hf]
    show (match s.str with | none => _ | some m => _) = _
    rw [hs]
    dsimp only
    rw [InStr.here hp]
    rfl

theorem InStr.get {s : Container} {past t : List Nat} {b : Nat} (h : InStr s past (b :: t)) :
    getc s = some (chr b, { s with pos := s.pos + 1 }) ∧ InStr { s with pos := s.pos + 1 } (past ++ [b]) t := by
  obtain ⟨hf, h0, hp, junk, hs⟩ := h
  have hb : b ≠ 0 := fun hh => h0 (by simp [hh])
  refine ⟨?_, hf, fun hh => h0 (by simp [hh]), by show s.pos + 1 = _; rw [hp]; simp, junk, by rw [hs]; simp⟩
  unfold getc
  rw [hf]
  show (match s.str with | none => _ | some m => _) = _
  rw [hs]
  dsimp only
  rw [InStr.here hp]
  show (if b = 0 then _ else _) = _
  rw [if_neg hb]
  rfl

theorem byte_chr {b : Nat} (h : b < 256) : byte (chr b) = b := by
  unfold byte chr
  split <;> split <;> omega

theorem chr_ne {b : Nat} (h : b < 256) (hb : b ≠ 255) : chr b ≠ -1 := by
  unfold chr
  split <;> omega

theorem InStr.back {s : Container} {past t : List Nat} {b : Nat} (hb : b < 256) (h : InStr s (past ++ [b]) t) (h0 : b ≠ 0) :
    ∃ s', ungetc (chr b) s = some (chr b, s') ∧ InStr s' past (b :: t) := by
  obtain ⟨hf, ht, hp, junk, hs⟩ := h
  have hp' : s.pos = past.length + 1 := by rw [hp]; simp
  refine ⟨{ s with str := some (past ++ (b :: t) ++ 0 :: junk), pos := s.pos - 1 }, ?_, hf, by simp; exact ⟨fun hh => h0 hh.symm, ht⟩, by show s.pos - 1 = _; omega, junk, rfl⟩
  unfold ungetc
  rw [hf]
  show (match s.str with | none => _ | some m => _) = _
  rw [hs]
  dsimp only
  rw [if_neg (by omega), byte_chr hb]
  unfold poke
  rw [if_pos (by simp; omega)]
  have : s.pos - 1 = past.length := by omega
  rw [this]
  have e : (past ++ [b] ++ t ++ 0 :: junk).set past.length b = past ++ (b :: t) ++ 0 :: junk := by simp
  rw [e]
  rfl

theorem InFile.atEnd {s : Container} {dst : List Nat} {n : Nat} (h : InFile s []) (hn : 2 ≤ n) : fgets dst n s = some (none, s) ∧ getc s = some (-1, s) := by
  obtain ⟨f, hf, hr⟩ := h
  constructor
  · unfold fgets
    rw [hf]
    show (fileGets dst n f).bind _ = _
    unfold fileGets
    rw [if_neg (by omega), if_pos ⟨hr, hn⟩]
    show some (none, { s with file := some f }) = _
    rw [← hf]
  · unfold getc
    rw [hf]
    dsimp only
    rw [hr]

theorem InFile.get {s : Container} {t : List Nat} {b : Nat} (h : InFile s (b :: t)) :
    ∃ s', getc s = some (chr b, s') ∧ ∃ f, s'.file = some f ∧ f.rest = t ∧ f.back = false := by
  obtain ⟨f, hf, hr⟩ := h
  refine ⟨{ s with file := some { f with rest := t, back := false } }, ?_, _, rfl, rfl, rfl⟩
  unfold getc
  rw [hf]
  dsimp only
  rw [hr]

theorem InFile.back {s : Container} {t : List Nat} {b : Nat} (hb : b < 256) (h255 : b ≠ 255) {f : File} (hf : s.file = some f) (hr : f.rest = t) (hbk : f.back = false) :
    ∃ s', ungetc (chr b) s = some (chr b, s') ∧ InFile s' (b :: t) := by
  refine ⟨{ s with file := some { f with rest := b :: t, back := true } }, ?_, _, rfl, rfl⟩
  unfold ungetc
  rw [hf]
  dsimp only
  rw [if_neg (chr_ne hb h255), hbk, byte_chr hb, hr]
  rfl

theorem InFile.gets {s : Container} {rest dst : List Nat} {n : Nat} (h : InFile s rest) (h0 : 0 ∉ rest) (h1 : 1 ≤ n) (h2 : n ≤ dst.length) (hr : rest ≠ []) :
    ∃ d s', fgets dst n s = some (some d, s') ∧ cstr d = some (throughLF (rest.take (n - 1))) ∧ InFile s' (rest.drop (throughLF (rest.take (n - 1))).length) := by
  obtain ⟨f, hf, hr'⟩ := h
  have hl : (throughLF (rest.take (n - 1))).length ≤ n - 1 := Nat.le_trans (through_pre _).length_le (by rw [List.length_take]; omega)
  have hl0 : 0 ∉ throughLF (rest.take (n - 1)) := fun hh => h0 (List.mem_of_mem_take ((through_pre _).subset hh))
  refine ⟨throughLF (rest.take (n - 1)) ++ 0 :: dst.drop ((throughLF (rest.take (n - 1))).length + 1),
    { s with file := some { f with rest := rest.drop (throughLF (rest.take (n - 1))).length, back := if throughLF (rest.take (n - 1)) = [] then f.back else false } }, ?_, cstr_append hl0, _, rfl, rfl⟩
  unfold fgets
  rw [hf]
  show (fileGets dst n f).bind _ = _
  unfold fileGets
  rw [if_neg (by omega), if_neg (by rw [hr']; simp [hr]), hr']
  have e : store dst (throughLF (rest.take (n - 1)) ++ [0]) = some (throughLF (rest.take (n - 1)) ++ 0 :: dst.drop ((throughLF (rest.take (n - 1))).length + 1)) := by
    unfold store
    rw [if_pos (by rw [List.length_append]; show _ + 1 ≤ _; omega)]
    simp
  dsimp only
  rw [e]
  rfl

end Verif.SF
