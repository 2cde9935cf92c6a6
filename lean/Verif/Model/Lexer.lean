import Verif.Model.StrTools

/-!
Model of the text reader used for ZML: `char_stream` (/repo/xo/serialization/char_stream.{h,cpp}) with the operators,
delimiters and quotation marks set by `parse_zml` (/repo/xo/serialization/prop_node_serializer_zml.cpp:152-156), and
`get_zml_token` (prop_node_serializer_zml.cpp:28-44).

The state of the stream is the text from `cur_pos` to the end. Every access is inside the text or at its terminating NUL.
The flag `eof` is set only at the end of the text, where reading gives empty tokens whatever the flag is, so it is not
represented. The flag `fail` is set only by an unsuccessful `seek`; from then on all tokens are empty, represented by
`LexEnd.bad`.
-/
namespace Xo
namespace Zml

/-- `strchr( " \n\r\t\v", c )` (char_stream.h:70, char_stream.cpp:68): also finds the terminating NUL. -/
def isDelim (c : Char) : Bool := [' ', '\n', '\r', '\t', Char.ofNat 11, Char.ofNat 0].contains c

/-- `strchr( "\"'", c )` (char_stream.cpp:75), where `c` is not NUL. -/
def isQuote (c : Char) : Bool := c = '"' || c = '\''

/-- The operators (prop_node_serializer_zml.cpp:154), sorted by length (char_stream.cpp:28-33). `std::sort` may order
operators of equal length differently, but no text begins with two different operators of equal length. -/
def operators : List Str :=
  [[':', ' '], ['<', '<'], ['>', '>'], ['/', '/'], ['/', '*'], ['*', '/'], ['='], ['{'], ['}'], ['['], [']'], ['#']]

/-- `check_operator` (char_stream.cpp:182-191). -/
def checkOperator (s : Str) : Option Str := operators.find? fun op => op.isPrefixOf s

/-- `skip_delimiters` (char_stream.h:70). -/
def skipDelims (s : Str) : Str := s.dropWhile isDelim

/-- The loop between quotation marks (char_stream.cpp:80-95) on the text behind the opening mark, with the token so far:
the token and the text behind the closing mark. At the end of the text a NUL is appended. A backslash as last character
is decoded with length 0, so that nothing is consumed and the loop never ends: `none`. (`C21_quote_loop` proves that
`none` is non-termination of the loop of the program.) -/
def quoteLoop (q : Char) (acc : Str) (s : Str) : Option (Str × Str) :=
  match s with
  | [] => some (acc ++ [Char.ofNat 0], [])
  | c :: cs =>
    if c = q then some (acc, cs)
    else if c = '\\' then
      match decodeChar (c :: cs) with
      | .ok (x, len) => if _h : len = 0 then none else quoteLoop q (acc ++ [x]) ((c :: cs).drop len)
      | _ => none
    else quoteLoop q (acc ++ [c]) cs
termination_by s.length
decreasing_by
  · simp only [List.length_drop, List.length_cons]; omega
  · simp

theorem quoteLoop_le {q : Char} {acc s t r : Str} (h : quoteLoop q acc s = some (t, r)) : r.length ≤ s.length := by
  induction hn : s.length using Nat.strongRecOn generalizing acc s with
  | ind n ih =>
    subst hn
    unfold quoteLoop at h
    split at h
    · cases h; simp
    · next c cs =>
      split at h
      · cases h; simp
      · split at h
        · split at h
          · next x len _ =>
            split at h
            · cases h
            · next hl =>
              have hlt : ((c :: cs).drop len).length < (c :: cs).length := by
                simp only [List.length_drop, List.length_cons]; omega
              have := ih _ hlt h rfl
              omega
          · cases h
        · have := ih cs.length (by simp) h rfl
          simp only [List.length_cons]
          omega

/-- The loop of `get_token` (char_stream.cpp:66-114). `acc` is the token so far, `pend` the text between `cur_pos` and
`cur_pos_end`, `s` the text from `cur_pos_end`. An opening quotation mark drops `pend` (line 78). -/
def tokLoop (acc pend s : Str) : Option (Str × Str) :=
  match s with
  | [] => some (acc ++ pend, [])
  | c :: cs =>
    if isDelim c then some (acc ++ pend, c :: cs)
    else if isQuote c then
      match _h : quoteLoop c acc cs with
      | some (acc', s') => tokLoop acc' [] s'
      | none => none
    else match checkOperator (c :: cs) with
      | some op => if pend.isEmpty && acc.isEmpty then some (op, (c :: cs).drop op.length) else some (acc ++ pend, c :: cs)
      | none => tokLoop acc (pend ++ [c]) cs
termination_by s.length
decreasing_by
  · have := quoteLoop_le _h
    simp only [List.length_cons]; omega
  · simp

/-- `get_token` (char_stream.cpp:61-117). -/
def getToken (s : Str) : Option (Str × Str) := tokLoop [] [] (skipDelims s)

/-- `get_line` (char_stream.cpp:45-59): the text behind the current line. `strcspn` also stops at NUL. -/
def skipLine (s : Str) : Str := s.dropWhile fun c => c ≠ '\r' && c ≠ '\n' && c ≠ Char.ofNat 0

/-- `seek_past( "*/" )` (char_stream.cpp:127-151). `strstr` does not look behind a NUL, and fails at the end of the text. -/
def seekPast (s : Str) : Option Str := (strFind (cstr s) ['*', '/'] 0).map fun i => s.drop (i + 2)

theorem checkOperator_some {s op : Str} (h : checkOperator s = some op) : op <+: s ∧ 0 < op.length := by
  unfold checkOperator at h
  have h1 := List.find?_some h
  have h2 := List.mem_of_find?_eq_some h
  refine ⟨List.isPrefixOf_iff_prefix.1 h1, ?_⟩
  revert h2
  simp only [operators, List.mem_cons, List.not_mem_nil, or_false]
  rintro (rfl | rfl | rfl | rfl | rfl | rfl | rfl | rfl | rfl | rfl | rfl | rfl) <;> decide

theorem tokLoop_le {acc pend s t r : Str} (h : tokLoop acc pend s = some (t, r)) : r.length ≤ s.length := by
  induction hn : s.length using Nat.strongRecOn generalizing acc pend s with
  | ind n ih =>
    subst hn
    unfold tokLoop at h
    split at h
    · cases h; simp
    · next c cs =>
      split at h
      · cases h; simp
      · split at h
        · split at h
          · next acc' s' hq =>
            have h1 := quoteLoop_le hq
            have := ih s'.length (by simp only [List.length_cons]; omega) h rfl
            simp only [List.length_cons]; omega
          · cases h
        · split at h
          · split at h
            · cases h; simp
            · cases h; simp
          · have := ih cs.length (by simp) h rfl
            simp only [List.length_cons]; omega

theorem skipDelims_le (s : Str) : (skipDelims s).length ≤ s.length := (List.dropWhile_suffix _).length_le

theorem skipDelims_head {s : Str} {c : Char} {cs : Str} (h : skipDelims s = c :: cs) : isDelim c = false := by
  unfold skipDelims at h
  have := List.head_dropWhile_not isDelim (l := s) (by rw [h]; simp)
  simp only [h, List.head_cons] at this
  exact this

/-- Reading a token consumes something unless only delimiters are left. -/
theorem getToken_lt {s t r : Str} (hs : skipDelims s ≠ []) (h : getToken s = some (t, r)) : r.length < s.length := by
  unfold getToken at h
  have hle := skipDelims_le s
  cases hd : skipDelims s with
  | nil => exact absurd hd hs
  | cons c cs =>
    rw [hd] at h hle
    simp only [List.length_cons] at hle
    have hc := skipDelims_head hd
    unfold tokLoop at h
    simp only [hc, Bool.false_eq_true, if_false] at h
    split at h
    · split at h
      · next acc' s' hq =>
        have h1 := quoteLoop_le hq
        have h2 := tokLoop_le h
        omega
      · cases h
    · split at h
      · next op hop =>
        have hp := checkOperator_some hop
        simp only [List.isEmpty_nil, Bool.and_self, if_true, Option.some.injEq, Prod.mk.injEq] at h
        rw [← h.2]
        simp only [List.length_drop, List.length_cons]
        omega
      · have h2 := tokLoop_le h
        omega

theorem skipLine_le (s : Str) : (skipLine s).length ≤ s.length := (List.dropWhile_suffix _).length_le

theorem seekPast_le {s r : Str} (h : seekPast s = some r) : r.length ≤ s.length := by
  unfold seekPast at h
  cases hf : strFind (cstr s) ['*', '/'] 0 with
  | none => rw [hf] at h; cases h
  | some i =>
    rw [hf] at h
    simp only [Option.map_some, Option.some.injEq] at h
    rw [← h]; simp

/-- How reading tokens continues: a token and the text behind it; the end of the text; an unclosed comment; a loop that never
ends. -/
inductive Step
  | tok (t rest : Str)
  | eof
  | bad
  | div
deriving DecidableEq, Repr

/-- `get_zml_token` (prop_node_serializer_zml.cpp:28-44). -/
def zmlToken (s : Str) : Step :=
  if _hs : skipDelims s = [] then .eof
  else match _h : getToken s with
    | none => .div
    | some (t, r) =>
      if t = ['#'] ∨ t = ['/', '/'] then zmlToken (skipLine r)
      else if t = ['/', '*'] then
        match _h2 : seekPast r with
        | some r' => zmlToken r'
        | none => .bad
      else .tok t r
termination_by s.length
decreasing_by
  · have := getToken_lt _hs _h
    have := skipLine_le r
    omega
  · have := getToken_lt _hs _h
    have := seekPast_le _h2
    omega

theorem zmlToken_lt {s t r : Str} (h : zmlToken s = .tok t r) : r.length < s.length := by
  induction hn : s.length using Nat.strongRecOn generalizing s with
  | ind n ih =>
    subst hn
    unfold zmlToken at h
    split at h
    · cases h
    · next hs =>
      split at h
      · cases h
      · next t' r' hg =>
        have h1 := getToken_lt hs hg
        split at h
        · have h2 := skipLine_le r'
          have := ih _ (by omega) h rfl
          omega
        · split at h
          · split at h
            · next r'' hk =>
              have h2 := seekPast_le hk
              have := ih _ (by omega) h rfl
              omega
            · cases h
          · cases h; exact h1

/-- What follows the last token. -/
inductive LexEnd
  | eof
  | bad
  | div
deriving DecidableEq, Repr

/-- The tokens that successive calls of `get_zml_token` return, and what follows. -/
def lexAll (s : Str) : List Str × LexEnd :=
  match _h : zmlToken s with
  | .tok t r => (t :: (lexAll r).1, (lexAll r).2)
  | .eof => ([], .eof)
  | .bad => ([], .bad)
  | .div => ([], .div)
termination_by s.length
decreasing_by all_goals exact zmlToken_lt _h

end Zml
end Xo
