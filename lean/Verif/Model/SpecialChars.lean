import Verif.Model.StrTools

/-! `replace_special_chars` (xo/string/string_tools.cpp:200-212) and `stringf` (257-271). Characters are bytes; the
source file is in Latin-1. -/

namespace Xo.SpecC

/-- The table `fixes` (string_tools.cpp:202-207). -/
def fixes : List (List Nat × Str) :=
  [([0xC1, 0xC0], ['A']), ([0xC4], ['A', 'e']), ([0xDC, 0xDB, 0xD9], ['U']),
   ([0xE1, 0xE0], ['a']), ([0xE4], ['a', 'e']), ([0xE7], ['c']),
   ([0xEB, 0xEA, 0xE9, 0xE8], ['e']), ([0xEF], ['i']), ([0xF1], ['n']),
   ([0xF3, 0xF6], ['o']), ([0xFB, 0xF9], ['u']), ([0xFC], ['u', 'e'])]

/-- `replace_special_chars` (string_tools.cpp:209-211): one `replace_str` after the other. -/
def replaceSpecialChars (s : Str) : Res Str :=
  fixes.foldl (fun r f => f.1.foldl (fun r c => r.bind fun s => replaceStr s [Char.ofNat c] f.2) r) (.ok s)

/-- `stringf` (string_tools.cpp:257-271), where `text` is what the format and its arguments stand for: `vsnprintf`
writes at most 255 characters and a zero, and the string ends at the first zero. -/
def stringf (text : Str) : Str := cstr (text.take 255)

end Xo.SpecC
