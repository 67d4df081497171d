import Verif.Util.StrOrFileLemmas

/-
Property theorems C79 (strings and files are read alike), C80 (nothing is lost between writing and reading).
-/
namespace Verif.Props
open Verif Verif.SB Verif.SF

/-- One question put to a container with a buffer for lines; a character looked at is put back if there is one. -/
def serve (dst : List Nat) (s : Container) : Ask → Option (Reply × Container)
  | .char => do let (c, s) ← getc s; return (.char c, s)
  | .peek => do
    let (c, s) ← getc s
    if c = -1 then return (.char c, s)
    else do let (d, s) ← ungetc c s; return (.char d, s)
  | .line n => do
    let (r, s) ← fgets dst n s
    match r with
    | none => return (.nothing, s)
    | some d => do return (.line (← cstr d), s)

/-- A list of questions. -/
def session (dst : List Nat) : Container → List Ask → Option (List Reply)
  | _, [] => some []
  | s, a :: as => do
    let (r, s) ← serve dst s a
    return r :: (← session dst s as)

/-- Lines fit into the buffer and have room for a character. -/
def RoomFor (dst : List Nat) (as : List Ask) : Prop := ∀ n, Ask.line n ∈ as → 2 ≤ n ∧ n ≤ dst.length

theorem string_session {dst : List Nat} : ∀ {as : List Ask} {t : List Nat} {s : Container} {past : List Nat}, RoomFor dst as → InStr s past t → (∀ b ∈ t, b < 255) → 13 ∉ t →
    ∃ rs, session dst s as = some rs ∧ Reads t as rs
  | [], t, s, past, _, _, _, _ => ⟨[], rfl, .done t⟩
  | .char :: as, [], s, past, hF, h, hb, hr => by
    obtain ⟨rs, e, k⟩ := string_session (as := as) (fun n hn => hF n (List.mem_cons_of_mem _ hn)) h hb hr
    refine ⟨.char (-1) :: rs, ?_, .charEnd k⟩
    unfold session serve
    rw [(h.atEnd (dst := dst) (n := 2)).2]
    show (session dst s as).bind _ = _
    rw [e]; rfl
  | .char :: as, b :: t, s, past, hF, h, hb, hr => by
    obtain ⟨e1, h1⟩ := h.get
    obtain ⟨rs, e, k⟩ := string_session (as := as) (fun n hn => hF n (List.mem_cons_of_mem _ hn)) h1 (fun x hx => hb x (by simp [hx])) (fun hh => hr (by simp [hh]))
    refine ⟨.char (signed b) :: rs, ?_, .char k⟩
    unfold session serve
    rw [e1]
    show (session dst _ as).bind _ = _
    rw [e]; rfl
  | .peek :: as, [], s, past, hF, h, hb, hr => by
    obtain ⟨rs, e, k⟩ := string_session (as := as) (fun n hn => hF n (List.mem_cons_of_mem _ hn)) h hb hr
    refine ⟨.char (-1) :: rs, ?_, .peekEnd k⟩
    unfold session serve
    rw [(h.atEnd (dst := dst) (n := 2)).2]
    show (session dst s as).bind _ = _
    rw [e]; rfl
  | .peek :: as, b :: t, s, past, hF, h, hb, hr => by
    obtain ⟨e1, h1⟩ := h.get
    have hb' := hb b (by simp)
    obtain ⟨s2, e2, h2⟩ := h1.back (by omega) (fun hh => h.2.1 (by simp [hh]))
    obtain ⟨rs, e, k⟩ := string_session (as := as) (fun n hn => hF n (List.mem_cons_of_mem _ hn)) h2 hb hr
    refine ⟨.char (signed b) :: rs, ?_, .peek k⟩
    unfold session serve
    rw [e1]
    show ((if chr b = -1 then _ else _) : Option _).bind _ = _
    rw [if_neg (chr_ne (by omega) (by omega))]
    show ((ungetc (chr b) _).bind _).bind _ = _
    rw [e2]
    show (session dst _ as).bind _ = _
    rw [e]; rfl
  | .line n :: as, [], s, past, hF, h, hb, hr => by
    obtain ⟨rs, e, k⟩ := string_session (as := as) (fun n hn => hF n (List.mem_cons_of_mem _ hn)) h hb hr
    refine ⟨.nothing :: rs, ?_, .lineEnd k⟩
    unfold session serve
    dsimp only
    rw [(h.atEnd (dst := dst) (n := n)).1]
    show (session dst s as).bind _ = _
    rw [e]; rfl
  | .line n :: as, b :: t, s, past, hF, h, hb, hr => by
    have hn := hF n List.mem_cons_self
    obtain ⟨d, s2, e1, e2, h2⟩ := h.gets (n := n) (dst := dst) (by omega) hn.2 (by simp)
    have hl : strLine ((b :: t).take (n - 1)) = throughLF ((b :: t).take (n - 1)) := strLine_eq fun hh => hr (List.mem_of_mem_take hh)
    rw [hl] at h2 e2
    obtain ⟨rs, e, k⟩ := string_session (as := as) (fun n hn => hF n (List.mem_cons_of_mem _ hn)) h2 (fun x hx => hb x (List.mem_of_mem_drop hx)) (fun hh => hr (List.mem_of_mem_drop hh))
    refine ⟨.line (throughLF ((b :: t).take (n - 1))) :: rs, ?_, .line (by simp) (nextLine_through _ _) k⟩
    unfold session serve
    dsimp only
    rw [e1]
    show ((cstr d).bind _).bind _ = _
    rw [e2]
    show (session dst _ as).bind _ = _
    rw [e]; rfl

theorem file_session {dst : List Nat} : ∀ {as : List Ask} {t : List Nat} {s : Container}, RoomFor dst as → InFile s t → 0 ∉ t → (∀ b ∈ t, b < 255) →
    ∃ rs, session dst s as = some rs ∧ Reads t as rs
  | [], t, s, _, _, _, _ => ⟨[], rfl, .done t⟩
  | .char :: as, [], s, hF, h, h0, hb => by
    obtain ⟨rs, e, k⟩ := file_session (as := as) (fun n hn => hF n (List.mem_cons_of_mem _ hn)) h h0 hb
    refine ⟨.char (-1) :: rs, ?_, .charEnd k⟩
    unfold session serve
    rw [(h.atEnd (dst := dst) (n := 2) (by omega)).2]
    show (session dst s as).bind _ = _
    rw [e]; rfl
  | .char :: as, b :: t, s, hF, h, h0, hb => by
    obtain ⟨s1, e1, f, h1, h2, _⟩ := h.get
    obtain ⟨rs, e, k⟩ := file_session (as := as) (s := s1) (fun n hn => hF n (List.mem_cons_of_mem _ hn)) ⟨f, h1, h2⟩ (fun hh => h0 (by simp [hh])) (fun x hx => hb x (by simp [hx]))
    refine ⟨.char (signed b) :: rs, ?_, .char k⟩
    unfold session serve
    rw [e1]
    show (session dst _ as).bind _ = _
    rw [e]; rfl
  | .peek :: as, [], s, hF, h, h0, hb => by
    obtain ⟨rs, e, k⟩ := file_session (as := as) (fun n hn => hF n (List.mem_cons_of_mem _ hn)) h h0 hb
    refine ⟨.char (-1) :: rs, ?_, .peekEnd k⟩
    unfold session serve
    rw [(h.atEnd (dst := dst) (n := 2) (by omega)).2]
    show (session dst s as).bind _ = _
    rw [e]; rfl
  | .peek :: as, b :: t, s, hF, h, h0, hb => by
    obtain ⟨s1, e1, f, h1, h2, h3⟩ := h.get
    have hb' := hb b (by simp)
    obtain ⟨s2, e2, h2⟩ := InFile.back (b := b) (by omega) (by omega) h1 h2 h3
    obtain ⟨rs, e, k⟩ := file_session (as := as) (fun n hn => hF n (List.mem_cons_of_mem _ hn)) h2 h0 hb
    refine ⟨.char (signed b) :: rs, ?_, .peek k⟩
    unfold session serve
    rw [e1]
    show ((if chr b = -1 then _ else _) : Option _).bind _ = _
    rw [if_neg (chr_ne (by omega) (by omega))]
    show ((ungetc (chr b) _).bind _).bind _ = _
    rw [e2]
    show (session dst _ as).bind _ = _
    rw [e]; rfl
  | .line n :: as, [], s, hF, h, h0, hb => by
    have hn := hF n List.mem_cons_self
    obtain ⟨rs, e, k⟩ := file_session (as := as) (fun n hn => hF n (List.mem_cons_of_mem _ hn)) h h0 hb
    refine ⟨.nothing :: rs, ?_, .lineEnd k⟩
    unfold session serve
    dsimp only
    rw [(h.atEnd (dst := dst) (n := n) hn.1).1]
    show (session dst s as).bind _ = _
    rw [e]; rfl
  | .line n :: as, b :: t, s, hF, h, h0, hb => by
    have hn := hF n List.mem_cons_self
    obtain ⟨d, s2, e1, e2, h2⟩ := h.gets (n := n) (dst := dst) h0 (by omega) hn.2 (by simp)
    obtain ⟨rs, e, k⟩ := file_session (as := as) (fun n hn => hF n (List.mem_cons_of_mem _ hn)) h2 (fun hh => h0 (List.mem_of_mem_drop hh)) (fun x hx => hb x (List.mem_of_mem_drop hx))
    refine ⟨.line (throughLF ((b :: t).take (n - 1))) :: rs, ?_, .line (by simp) (nextLine_through _ _) k⟩
    unfold session serve
    dsimp only
    rw [e1]
    show ((cstr d).bind _).bind _ = _
    rw [e2]
    show (session dst _ as).bind _ = _
    rw [e]; rfl

/-- A line is determined by the text. -/
theorem NextLine.unique {n : Nat} {t l l' : List Nat} (h : NextLine n t l) (h' : NextLine n t l') : l = l' := by
  have key : ∀ {l l' : List Nat}, NextLine n t l → NextLine n t l' → l.length ≤ l'.length → l = l' := by
    intro l l' h h' hle
    have hp : l <+: l' := List.prefix_of_prefix_length_le h.pre h'.pre hle
    rcases h.full with e | e | e
    · have := h'.pre.length_le
      rw [← e] at this
      exact hp.eq_of_length (by omega)
    · exact hp.eq_of_length (by have := h'.len; omega)
    · obtain ⟨r, rfl⟩ := hp
      cases r with
      | nil => simp
      | cons a r =>
        refine absurd ?_ h'.inner
        rw [List.dropLast_append_of_ne_nil (by simp)]
        exact List.mem_append_left _ (List.mem_of_getLast? e)
  rcases Nat.le_total l.length l'.length with hh | hh
  · exact key h h' hh
  · exact (key h' h hh).symm

/-- The replies are determined by the text and the questions. -/
theorem Reads.unique {as : List Ask} : ∀ {t : List Nat} {rs rs' : List Reply}, Reads t as rs → Reads t as rs' → rs = rs' := by
  induction as with
  | nil => intro t rs rs' h h'; cases h; cases h'; rfl
  | cons a as ih =>
    intro t rs rs' h h'
    cases h with
    | char k => cases h' with | char k' => rw [ih k k']
    | charEnd k => cases h' with | charEnd k' => rw [ih k k']
    | peek k => cases h' with | peek k' => rw [ih k k']
    | peekEnd k => cases h' with | peekEnd k' => rw [ih k k']
    | lineEnd k =>
      cases h' with
      | lineEnd k' => rw [ih k k']
      | line h1 => exact absurd rfl h1
    | line h1 h2 k =>
      cases h' with
      | lineEnd => exact absurd rfl h1
      | line _ h3 k' =>
        obtain rfl := h2.unique h3
        rw [ih k k']

/-- C79, the part that holds: for a text without NUL, carriage return and byte 255, a container made from the string and one
made from a file with the same bytes give the same replies, those of the text, to all questions for characters and lines.
Missing: texts with carriage returns, see `containers_alike_false`. -/
theorem containers_alike_partial {dst t junk : List Nat} {as : List Ask} (hF : RoomFor dst as) (h0 : 0 ∉ t) (hr : 13 ∉ t) (hb : ∀ b ∈ t, b < 255) :
    ∃ a b rs, SF.new none (some (t ++ 0 :: junk)) = some a ∧ SF.new (some ⟨t, false, []⟩) none = some b ∧
      session dst a as = some rs ∧ session dst b as = some rs ∧ Reads t as rs := by
  obtain ⟨rs, e1, k1⟩ := string_session (s := ⟨none, some (t ++ 0 :: junk), 0⟩) (past := []) hF ⟨rfl, h0, rfl, junk, by simp⟩ hb hr
  obtain ⟨rs', e2, k2⟩ := file_session (s := ⟨some ⟨t, false, []⟩, none, 0⟩) hF ⟨_, rfl, rfl⟩ h0 hb
  obtain rfl := k1.unique k2
  exact ⟨_, _, rs, rfl, rfl, e1, e2, k1⟩

/-- Hypotheses of `containers_alike_partial`, and the replies for a text of two lines. -/
example : RoomFor (List.replicate 8 7) [.peek, .line 3, .char, .line 8, .line 8, .char] ∧ (0 ∉ [97, 98, 99, 100, 10, 101] ∧ 13 ∉ [97, 98, 99, 100, 10, 101] ∧ ∀ b ∈ [97, 98, 99, 100, 10, 101], b < 255) ∧
    session (List.replicate 8 7) ⟨none, some [97, 98, 99, 100, 10, 101, 0], 0⟩ [.peek, .line 3, .char, .line 8, .line 8, .char] =
      some [.char 97, .line [97, 98], .char 99, .line [100, 10], .line [101], .char (-1)] := by
  refine ⟨?_, by decide, by decide⟩
  intro n hn
  simp at hn
  simp
  omega

/-- C79 is false: a carriage return ends a line of a string but not of a file; a character EOF put back at the end of a
string overwrites its last character, while a file refuses it; at the start of a string nothing can be put back. -/
theorem containers_alike_false :
    (session (List.replicate 8 7) ⟨none, some [97, 13, 98, 0], 0⟩ [.line 8] = some [.line [97, 13]] ∧
      session (List.replicate 8 7) ⟨some ⟨[97, 13, 98], false, []⟩, none, 0⟩ [.line 8] = some [.line [97, 13, 98]]) ∧
    (ungetc (-1) ⟨none, some [97, 0], 1⟩ = some (-1, ⟨none, some [255, 0], 0⟩) ∧
      ungetc (-1) ⟨some ⟨[], false, []⟩, none, 0⟩ = some (-1, ⟨some ⟨[], false, []⟩, none, 0⟩)) ∧
    (ungetc 120 ⟨none, some [97, 0], 0⟩ = some (-1, ⟨none, some [97, 0], 0⟩) ∧
      ungetc 120 ⟨some ⟨[97], false, []⟩, none, 0⟩ = some (120, ⟨some ⟨[120, 97], true, []⟩, none, 0⟩)) := by
  decide

/-- All lines until the end. -/
def allLines (dst : List Nat) (n : Nat) : Nat → Container → Option (List (List Nat))
  | 0, _ => none
  | fuel + 1, s => do
    let (r, s) ← fgets dst n s
    match r with
    | none => return []
    | some d => do return (← cstr d) :: (← allLines dst n fuel s)

theorem string_lines {dst : List Nat} {n : Nat} (h2 : 2 ≤ n) (hn : n ≤ dst.length) : ∀ {fuel : Nat} {t past : List Nat} {s : Container}, InStr s past t → t.length < fuel →
    ∃ ls, allLines dst n fuel s = some ls ∧ ls.flatten = t ∧ ∀ l ∈ ls, l ≠ [] ∧ l.length < n
  | 0, t, past, s, _, hf => absurd hf (by omega)
  | fuel + 1, [], past, s, h, _ => by
    refine ⟨[], ?_, rfl, by simp⟩
    unfold allLines
    rw [h.atEnd.1]
    rfl
  | fuel + 1, b :: t, past, s, h, hf => by
    obtain ⟨d, s2, e1, e2, h3⟩ := h.gets (n := n) (dst := dst) (by omega) hn (by simp)
    have hp := (strLine_pre ((b :: t).take (n - 1))).trans (List.take_prefix _ _)
    have hne : strLine ((b :: t).take (n - 1)) ≠ [] := strLine_ne (by
      obtain ⟨m, hm⟩ : ∃ m, n - 1 = m + 1 := ⟨n - 2, by omega⟩
      rw [hm]; simp)
    have hlen := (strLine_pre ((b :: t).take (n - 1))).length_le
    rw [List.length_take] at hlen
    generalize strLine ((b :: t).take (n - 1)) = l at *
    obtain ⟨r, hr⟩ := hp
    rw [← hr, List.drop_left] at h3
    have hl0 : 0 < l.length := List.length_pos_iff.2 hne
    have hlr : l.length + r.length = (b :: t).length := by rw [← hr, List.length_append]
    obtain ⟨ls, k1, k2, k3⟩ := string_lines h2 hn (fuel := fuel) h3 (by omega)
    refine ⟨l :: ls, ?_, by rw [List.flatten_cons, k2, hr], ?_⟩
    · unfold allLines
      rw [e1]
      show (cstr d).bind _ = _
      rw [e2]
      show (allLines dst n fuel s2).bind _ = _
      rw [k1]
      rfl
    · intro x hx
      rcases List.mem_cons.1 hx with rfl | hx
      · exact ⟨hne, by omega⟩
      · exact k3 x hx

theorem file_lines {dst : List Nat} {n : Nat} (h2 : 2 ≤ n) (hn : n ≤ dst.length) : ∀ {fuel : Nat} {t : List Nat} {s : Container}, InFile s t → 0 ∉ t → t.length < fuel →
    ∃ ls, allLines dst n fuel s = some ls ∧ ls.flatten = t ∧ ∀ l ∈ ls, l ≠ [] ∧ l.length < n
  | 0, t, s, _, _, hf => absurd hf (by omega)
  | fuel + 1, [], s, h, _, _ => by
    refine ⟨[], ?_, rfl, by simp⟩
    unfold allLines
    rw [(h.atEnd h2).1]
    rfl
  | fuel + 1, b :: t, s, h, h0, hf => by
    obtain ⟨d, s2, e1, e2, h3⟩ := h.gets (n := n) (dst := dst) h0 (by omega) hn (by simp)
    have hp := (through_pre ((b :: t).take (n - 1))).trans (List.take_prefix _ _)
    have hne : throughLF ((b :: t).take (n - 1)) ≠ [] := through_ne (by
      obtain ⟨m, hm⟩ : ∃ m, n - 1 = m + 1 := ⟨n - 2, by omega⟩
      rw [hm]; simp)
    have hlen := (through_pre ((b :: t).take (n - 1))).length_le
    rw [List.length_take] at hlen
    generalize throughLF ((b :: t).take (n - 1)) = l at *
    obtain ⟨r, hr⟩ := hp
    rw [← hr, List.drop_left] at h3
    have hl0 : 0 < l.length := List.length_pos_iff.2 hne
    have hlr : l.length + r.length = (b :: t).length := by rw [← hr, List.length_append]
    have hr0 : 0 ∉ r := fun hh => h0 (by rw [← hr]; exact List.mem_append_right _ hh)
    obtain ⟨ls, k1, k2, k3⟩ := file_lines h2 hn (fuel := fuel) h3 hr0 (by omega)
    refine ⟨l :: ls, ?_, by rw [List.flatten_cons, k2, hr], ?_⟩
    · unfold allLines
      rw [e1]
      show (cstr d).bind _ = _
      rw [e2]
      show (allLines dst n fuel s2).bind _ = _
      rw [k1]
      rfl
    · intro x hx
      rcases List.mem_cons.1 hx with rfl | hx
      · exact ⟨hne, by omega⟩
      · exact k3 x hx

/-- Several strings written one after the other: the results and the container. -/
def putAll (junk : Nat → Nat) : Container → List (List Nat) → Option (List Int × Container)
  | s, [] => some ([], s)
  | s, w :: ws => do
    let (r, s) ← fputs junk w s
    let (rs, s) ← putAll junk s ws
    return (r :: rs, s)

/-- The C strings `ws` hold the texts `us`. -/
def Texts (ws us : List (List Nat)) : Prop := List.Forall₂ IsCStr ws us

theorem fputs_string (junk : Nat → Nat) {w u t m : List Nat} {s : Container} (hw : IsCStr w u) (hf : s.file = none) (hs : s.str = some m) (ht : IsCStr m t) :
    ∃ m', fputs junk w s = some ((u.length : Int), { s with str := some m', pos := s.pos + u.length }) ∧ IsCStr m' (t ++ u) := by
  obtain ⟨h0, r, rfl⟩ := ht
  obtain ⟨hw0, r', hw'⟩ := hw
  have e1 : cstr w = some u := by rw [hw']; exact cstr_append hw0
  let n := t.length + u.length + 1
  let m1 := (t ++ 0 :: r).take n ++ (List.range (n - (t ++ 0 :: r).length)).map junk
  have hm1 : m1.length = n := by simp [m1]; omega
  obtain ⟨r1, hr1⟩ : ∃ r1, m1 = t ++ 0 :: r1 := by
    refine ⟨r.take u.length ++ (List.range (n - (t ++ 0 :: r).length)).map junk, ?_⟩
    show (t ++ 0 :: r).take n ++ _ = _
    rw [List.take_append, List.take_of_length_le (by omega), show n - t.length = u.length + 1 by omega, List.take_succ_cons]
    simp
  have e2 : SB.strcpy m1 t.length w = some (m1.take t.length ++ u ++ [0] ++ m1.drop (t.length + u.length + 1)) := strcpy_eq ⟨hw0, r', hw'⟩ (by omega)
  have e3 : m1.take t.length = t := by rw [hr1, List.take_left]
  refine ⟨t ++ u ++ [0] ++ m1.drop (t.length + u.length + 1), ?_, by simp [h0, hw0], m1.drop (t.length + u.length + 1), by simp⟩
  rw [e3] at e2
  unfold fputs
  rw [e1]
  show (match s.file with | some f => _ | none => _) = _
  rw [hf]
  show (match s.str with | none => _ | some m => _) = _
  rw [hs]
  show (cstr (t ++ 0 :: r)).bind _ = _
  rw [cstr_append h0]
  show (cstr m1).bind (fun cur => (SB.strcpy m1 cur.length w).bind _) = _
  rw [hr1, cstr_append h0, ← hr1]
  show (SB.strcpy m1 t.length w).bind _ = _
  rw [e2]
  rfl

/-- C80: writing strings to a container that holds a string appends them exactly, each call returns the number of bytes,
and the string that is then taken reads back as the whole text, in lines of any length. -/
theorem written_string_read (junk : Nat → Nat) {m t : List Nat} (ht : IsCStr m t) {ws us : List (List Nat)} (hw : Texts ws us) :
    ∃ s s' m', SF.new none (some m) = some s ∧ putAll junk s ws = some (us.map fun u => (u.length : Int), s') ∧
      (takeTheStr s').1 = some m' ∧ IsCStr m' (t ++ us.flatten) ∧
      ∀ dst n, 2 ≤ n → n ≤ dst.length → ∃ b ls, SF.new none (some m') = some b ∧ allLines dst n (m'.length + 1) b = some ls ∧
        ls.flatten = t ++ us.flatten ∧ ∀ l ∈ ls, l ≠ [] ∧ l.length < n := by
  have key : ∀ {ws us : List (List Nat)}, Texts ws us → ∀ {m t : List Nat} {s : Container}, IsCStr m t → s.file = none → s.str = some m →
      ∃ s' m', putAll junk s ws = some (us.map fun u => (u.length : Int), s') ∧ s'.str = some m' ∧ IsCStr m' (t ++ us.flatten) := by
    intro ws us hw
    induction hw with
    | nil => intro m t s ht hf hs; exact ⟨s, m, rfl, hs, by simpa using ht⟩
    | cons h1 _ ih =>
      intro m t s ht hf hs
      obtain ⟨m1, e1, k1⟩ := fputs_string junk h1 hf hs ht
      obtain ⟨s2, m2, e2, k2, k3⟩ := ih (s := { s with str := some m1, pos := s.pos + _ }) k1 hf rfl
      refine ⟨s2, m2, ?_, k2, by simpa using k3⟩
      unfold putAll
      rw [e1]
      show (putAll junk _ _).bind _ = _
      rw [e2]
      rfl
  obtain ⟨s', m', e1, e2, e3⟩ := key hw (s := ⟨none, some m, 0⟩) ht rfl rfl
  refine ⟨_, s', m', rfl, e1, e2, e3, fun dst n h2 hn => ?_⟩
  obtain ⟨k0, r, hr⟩ := e3
  obtain ⟨ls, k1, k2, k3⟩ := string_lines h2 hn (fuel := m'.length + 1) (s := ⟨none, some m', 0⟩) (past := []) ⟨rfl, k0, rfl, r, by simp [hr]⟩ (by rw [hr]; simp; omega)
  exact ⟨_, ls, rfl, k1, k2, k3⟩

/-- C80: the same for files: the bytes written are the texts in order, and reading lines of any length gives them back. -/
theorem written_file_read (junk : Nat → Nat) {ws us : List (List Nat)} (hw : Texts ws us) :
    ∃ s s' f, SF.new (some ⟨[], false, []⟩) none = some s ∧ (putAll junk s ws).map (fun x => x.2) = some s' ∧ s'.file = some f ∧ f.out = us.flatten ∧
      ∀ dst n, 2 ≤ n → n ≤ dst.length → ∃ b ls, SF.new (some ⟨f.out, false, []⟩) none = some b ∧ allLines dst n (f.out.length + 1) b = some ls ∧
        ls.flatten = us.flatten ∧ ∀ l ∈ ls, l ≠ [] ∧ l.length < n := by
  have key : ∀ {ws us : List (List Nat)}, Texts ws us → ∀ {s : Container} {f : File}, s.file = some f →
      ∃ s' f', (putAll junk s ws).map (fun x => x.2) = some s' ∧ s'.file = some f' ∧ f'.out = f.out ++ us.flatten := by
    intro ws us hw
    induction hw with
    | nil => intro s f hf; exact ⟨s, f, rfl, hf, by simp⟩
    | @cons w u _ _ h1 _ ih =>
      intro s f hf
      obtain ⟨s2, f2, e2, k2, k3⟩ := ih (s := { s with file := some { f with out := f.out ++ u } }) rfl
      refine ⟨s2, f2, ?_, k2, by rw [k3]; simp⟩
      obtain ⟨h0, r, hr⟩ := h1
      have e1 : fputs junk w s = some (1, { s with file := some { f with out := f.out ++ u } }) := by
        unfold fputs
        rw [hr, cstr_append h0]
        show (match s.file with | some f => _ | none => _) = _
        rw [hf]
        rfl
      unfold putAll
      rw [e1]
      rw [Option.map_eq_some_iff] at e2
      obtain ⟨⟨a, b⟩, e2, e3⟩ := e2
      show Option.map _ ((putAll junk _ _).bind _) = _
      rw [e2]
      exact congrArg some e3
  have h0 : 0 ∉ us.flatten := by
    clear key
    induction hw with
    | nil => simp
    | cons h1 _ ih =>
      intro hh
      rw [List.flatten_cons] at hh
      rcases List.mem_append.1 hh with hh | hh
      · exact h1.1 hh
      · exact ih hh
  obtain ⟨s', f, e1, e2, e3⟩ := key hw (s := ⟨some ⟨[], false, []⟩, none, 0⟩) rfl
  have e3 : f.out = us.flatten := e3
  refine ⟨_, s', f, rfl, e1, e2, e3, fun dst n h2 hn => ?_⟩
  obtain ⟨ls, k1, k2, k3⟩ := file_lines h2 hn (fuel := f.out.length + 1) (s := ⟨some ⟨f.out, false, []⟩, none, 0⟩) (t := f.out) ⟨_, rfl, rfl⟩ (by rw [e3]; exact h0) (by omega)
  exact ⟨_, ls, rfl, k1, by rw [k2, e3], k3⟩

/-- Hypotheses of C80: two texts, one with a carriage return, after a string that is not empty. -/
example : IsCStr [120, 0, 5] [120] ∧ Texts [[97, 13, 98, 0], [10, 99, 0, 1]] [[97, 13, 98], [10, 99]] ∧
    (putAll (fun _ => 9) ⟨none, some [120, 0, 5], 0⟩ [[97, 13, 98, 0], [10, 99, 0, 1]]).map (fun x => (x.1, x.2.str)) =
      some ([3, 2], some [120, 97, 13, 98, 10, 99, 0]) ∧
    allLines (List.replicate 4 1) 4 9 ⟨none, some [120, 97, 13, 98, 10, 99, 0], 0⟩ = some [[120, 97, 13], [98, 10], [99]] := by
  refine ⟨⟨by decide, [5], rfl⟩, .cons ⟨by decide, [], rfl⟩ (.cons ⟨by decide, [1], rfl⟩ .nil), by decide, by decide⟩

end Verif.Props
