import Verif.Model.StrNum

/-!
Model of /repo/xo/string/string_tools.cpp. A position `string::npos` is `none`. A C++ `char` is a `Char` with code below
256; where the sign matters, codes from 128 on are negative (`char` is signed on the modelled platforms).
-/
namespace Xo

/-- The value of a (signed) C++ `char`. -/
def schar (c : Char) : Int := if c.toNat < 128 then c.toNat else (c.toNat : Int) - 256

/-- A C string ends at the first NUL; `s.c_str()` seen as a set of characters. -/
def cstr (s : Str) : Str := s.takeWhile (· ≠ Char.ofNat 0)

/-- `std::string::substr( pos, n )`: throws for `pos > size()`; `n = none` is `npos`. -/
def substr (s : Str) (pos : Nat) (n : Option Nat) : Res Str :=
  if pos > s.length then .err
  else .ok (match n with | some n => (s.drop pos).take n | none => s.drop pos)

/-- The search of `std::string::find` from position `i` on, in the rest of the text. -/
def findFrom (pat : Str) : Str → Nat → Option Nat
  | [], i => if pat.isPrefixOf [] then some i else none
  | c :: cs, i => if pat.isPrefixOf (c :: cs) then some i else findFrom pat cs (i + 1)

/-- `std::string::find( pat, pos )`. -/
def strFind (s pat : Str) (pos : Nat) : Option Nat := if pos > s.length then none else findFrom pat (s.drop pos) pos

/-- `left_str` (string_tools.cpp:29-34). `size()` fits an `int` (simplification). -/
def leftStr (s : Str) (n : Int) : Res Str :=
  if n ≥ 0 then substr s 0 (some n.toNat) else substr s 0 (some (max 0 ((s.length : Int) + n)).toNat)

/-- `mid_str` (string_tools.cpp:36-39). -/
def midStr (s : Str) (pos : Nat) (n : Option Nat) : Res Str := substr s pos n

/-- `right_str` (string_tools.cpp:41-46): the subtraction is unsigned with 64 bits. -/
def rightStr (s : Str) (n : Int) : Res Str :=
  if n ≥ 0 then substr s (((s.length : Int) - n) % 2 ^ 64).toNat none else substr s (-n).toNat none

/-- The loop of `find_nth_str` (string_tools.cpp:56-57): `n` more rounds. -/
def findNthLoop (s pat : Str) : Nat → Nat → Option Nat
  | 0, idx => some idx
  | n + 1, idx => match strFind s pat (if idx > 0 then idx + 1 else idx) with
    | some i => findNthLoop s pat n i
    | none => none

/-- `find_nth_str` (string_tools.cpp:53-59). -/
def findNthStr (s pat : Str) (n : Nat) : Option Nat := findNthLoop s pat n 0

/-- `str_begins_with` (string_tools.cpp:61-64). -/
def strBeginsWith (s pat : Str) : Bool := s.take pat.length = pat

/-- `str_ends_with` (string_tools.cpp:76-80). -/
def strEndsWith (s pat : Str) : Bool := decide (s.length ≥ pat.length) && s.drop (s.length - pat.length) = pat

/-- `find_first_not_of( chars )` (string_tools.cpp:99, 107). -/
def findFirstNotOf (chars s : Str) : Option Nat := s.findIdx? (fun c => !chars.contains c)

/-- `find_first_of( chars )` (string_tools.cpp:122, 143). -/
def findFirstOf (chars s : Str) : Option Nat := s.findIdx? (fun c => chars.contains c)

/-- The last position with a property, searched from the end. -/
def findLastIdx (p : Char → Bool) (s : Str) : Option Nat := (s.reverse.findIdx? p).map fun i => s.length - 1 - i

/-- `find_last_not_of( chars )` (string_tools.cpp:101, 113). -/
def findLastNotOf (chars s : Str) : Option Nat := findLastIdx (fun c => !chars.contains c) s

/-- `find_last_of( chars )` (string_tools.cpp:150). -/
def findLastOf (chars s : Str) : Option Nat := findLastIdx (fun c => chars.contains c) s

/-- `trim_str` (string_tools.cpp:97-103). `1 + right - left` is unsigned. -/
def trimStr (chars s : Str) : Res Str :=
  match findFirstNotOf chars s with
  | none => .ok []
  | some left => match findLastNotOf chars s with
    | some right => substr s left (some (((1 + right : Int) - left) % 2 ^ 64).toNat)
    | none => substr s left (some (((0 : Int) - left) % 2 ^ 64).toNat)

/-- `trim_left_str` (string_tools.cpp:105-109). -/
def trimLeftStr (chars s : Str) : Res Str :=
  match findFirstNotOf chars s with
  | some left => substr s left none
  | none => .ok []

/-- `trim_right_str` (string_tools.cpp:111-115): `1 + npos` is 0. -/
def trimRightStr (chars s : Str) : Res Str :=
  match findLastNotOf chars s with
  | some right => substr s 0 (some (1 + right))
  | none => substr s 0 (some 0)

/-- The loop of `split_str` (string_tools.cpp:117-139); positions are replaced by the rest of the text from that
position. The separators are `sep_chars.c_str()`. -/
def splitLoop (seps : Str) (s : Str) : List Str :=
  match _h : s.dropWhile (fun c => seps.contains c) with
  | [] => []
  | c :: cs => (c :: cs).takeWhile (fun c => !seps.contains c) ::
      splitLoop seps ((c :: cs).dropWhile (fun c => !seps.contains c))
termination_by s.length
decreasing_by
  have h1 : c :: cs <:+ s := by rw [← _h]; exact List.dropWhile_suffix _
  have hc : (!seps.contains c) = true := by
    have := List.head_dropWhile_not (fun c => seps.contains c) (l := s) (by rw [_h]; simp)
    simp only [_h, List.head_cons] at this
    simp only [this]; rfl
  rw [List.dropWhile_cons, if_pos hc]
  have h2 := (List.dropWhile_suffix (l := cs) (fun c => !seps.contains c)).length_le
  have h3 := h1.length_le
  simp at h3; omega

/-- `split_str` (string_tools.cpp:117-127). -/
def splitStr (s seps : Str) : List Str := splitLoop (cstr seps) s

/-- `split_str_at_first` (string_tools.cpp:141-146). -/
def splitAtFirst (s seps : Str) : Res (Str × Str) :=
  match findFirstOf (cstr seps) s with
  | some pos => (substr s 0 (some pos)).bind fun a => (substr s (pos + 1) none).bind fun b => .ok (a, b)
  | none => .ok (s, [])

/-- `split_str_at_last` (string_tools.cpp:148-153). -/
def splitAtLast (s seps : Str) : Res (Str × Str) :=
  match findLastOf (cstr seps) s with
  | some pos => (substr s 0 (some pos)).bind fun a => (substr s (pos + 1) none).bind fun b => .ok (a, b)
  | none => .ok (s, [])

theorem findFrom_some {pat : Str} : ∀ {s : Str} {i j : Nat}, findFrom pat s i = some j →
    i ≤ j ∧ j - i + pat.length ≤ s.length
  | [], i, j, h => by
    simp only [findFrom] at h
    split at h
    · next hp =>
      cases h
      have := List.isPrefixOf_iff_prefix.1 hp
      have := this.length_le
      exact ⟨Nat.le_refl _, by simpa using this⟩
    · cases h
  | c :: cs, i, j, h => by
    simp only [findFrom] at h
    split at h
    · next hp =>
      cases h
      have := (List.isPrefixOf_iff_prefix.1 hp).length_le
      exact ⟨Nat.le_refl _, by simpa using this⟩
    · have := findFrom_some h
      simp only [List.length_cons]
      omega

theorem strFind_some {s pat : Str} {pos j : Nat} (h : strFind s pat pos = some j) :
    pos ≤ j ∧ j + pat.length ≤ s.length := by
  unfold strFind at h
  split at h
  · cases h
  · have := findFrom_some h
    simp only [List.length_drop] at this
    omega

/-- The loop of `replace_str` (string_tools.cpp:158-159), searching from `pos` on. -/
def replaceLoop (find repl : Str) (hf : find ≠ []) (s : Str) (pos : Nat) : Str :=
  match _h : strFind s find pos with
  | none => s
  | some p => replaceLoop find repl hf (s.take p ++ repl ++ s.drop (p + find.length)) (p + repl.length)
termination_by s.length - pos
decreasing_by
  have := strFind_some _h
  have : 0 < find.length := List.length_pos_iff.2 hf
  simp only [List.length_append, List.length_take, List.length_drop]
  omega

/-- `replace_str` (string_tools.cpp:155-171). -/
def replaceStr (s find repl : Str) : Res Str := if hf : find ≠ [] then .ok (replaceLoop find repl hf s 0) else .err

/-- `replace_char` (string_tools.cpp:173-184). -/
def replaceChar (s : Str) (a b : Char) : Str := s.map (fun c => if c = a then b else c)

/-- `concat_str( list, delim )` (string_tools.cpp:233-246). -/
def concatList (l : List Str) (delim : Str) : Str :=
  (l.foldl (fun (st : Str × Bool) e =>
    if e.isEmpty then st else ((if st.2 then st.1 else st.1 ++ delim) ++ e, false)) ([], true)).1

/-- `concat_str( s1, s2, delim )` (string_tools.cpp:248-255). -/
def concat2 (s1 s2 : Str) (delim : Char) : Str :=
  if s1.isEmpty then s2 else if s2.isEmpty then s1 else s1 ++ delim :: s2

/-- `append_str` (string_tools.cpp:398-403). -/
def appendStr (s a delim : Str) : Str := (if !s.isEmpty && !strEndsWith s delim then s ++ delim else s) ++ a

/-- `make_key_value_str` (string_tools.cpp:225-231); `blank` are the default characters of `trim_str`. -/
def makeKeyValue (s sep : Str) : Res (Str × Str) :=
  let blank : Str := [' ', '\t', '\r', '\n', Char.ofNat 12, Char.ofNat 11]
  match findFirstOf (cstr sep) s with
  | none => .ok (s, [])
  | some pos =>
    (substr s 0 (some pos)).bind fun a => (trimStr blank a).bind fun k =>
    (midStr s (pos + 1) none).bind fun b => (trimStr blank b).bind fun v => .ok (k, v)

/-- The octal digits that `printf( "%03o", n )` writes: at least three. -/
def octalDigits : Nat → Nat → List Char
  | 0, _ => []
  | fuel + 1, n => octalDigits fuel (n / 8) ++ [Char.ofNat (48 + n % 8)]

/-- `stringf( "\\%03o", (int)c )` (string_tools.cpp:301): for a negative `char` the 32-bit two's complement, which
has eleven octal digits. -/
def octalEscape (c : Char) : Str :=
  if schar c < 0 then '\\' :: octalDigits 11 (2 ^ 32 - 256 + c.toNat) else '\\' :: octalDigits 3 c.toNat

/-- `encode_char` (string_tools.cpp:288-305). -/
def encodeChar (c : Char) : Str :=
  if c = '"' then ['\\', '"']
  else if c = '\\' then ['\\', '\\']
  else if schar c < 32 then
    if c = '\r' then ['\\', 'r'] else if c = '\n' then ['\\', 'n'] else if c = '\t' then ['\\', 't'] else octalEscape c
  else [c]

/-- The loop reading octal digits (string_tools.cpp:328-333): at most `fuel` digits; value and number of digits. -/
def readOct : Nat → Nat → Str → Nat × Nat
  | 0, v, _ => (v, 0)
  | _ + 1, v, [] => (v, 0)
  | fuel + 1, v, c :: cs =>
    if '0' ≤ c ∧ c < '8' then ((readOct fuel (v * 8 + (c.toNat - 48)) cs).1, (readOct fuel (v * 8 + (c.toNat - 48)) cs).2 + 1)
    else (v, 0)

/-- `decode_char( buf, buf_size, &len )` (string_tools.cpp:307-339): the character and `len`. The buffer is the list. -/
def decodeChar (buf : Str) : Res (Char × Nat) :=
  match buf with
  | [] => .err
  | [c] => .ok (c, 0)
  | c :: d :: rest =>
    if c ≠ '\\' then .ok (c, 0)
    else if d = Char.ofNat 0 then .ok ('?', 2)
    else if d = '\\' then .ok ('\\', 2)
    else if d = '"' then .ok ('"', 2)
    else if d = 'r' then .ok ('\r', 2)
    else if d = 'n' then .ok ('\n', 2)
    else if d = 't' then .ok ('\t', 2)
    else
      let r := readOct 3 0 (d :: rest)
      .ok (if r.2 > 0 ∧ r.1 > 0 ∧ r.1 < 32 then Char.ofNat r.1 else '?', r.2 + 1)

/-- `quoted` (string_tools.cpp:341-352). -/
def quoted (s : Str) : Str :=
  '"' :: s.flatMap (fun c => if c = '"' ∨ c = '\\' ∨ schar c < 32 then encodeChar c else [c]) ++ ['"']

/-- `needs_quotes` (string_tools.cpp:354-360). `strchr` also finds the terminating NUL. -/
def needsQuotes (special s : Str) : Bool :=
  s.any (fun c => decide (schar c < 33) || c = '"' || special.contains c || c = Char.ofNat 0) || s.isEmpty

/-- `try_quoted` (string_tools.cpp:362-367). -/
def tryQuoted (special s : Str) : Str := if needsQuotes special s then quoted s else s

/-- The loop of `try_unquoted` (string_tools.cpp:375-384) on the rest of the text. Reading past the end is undefined.
A lone backslash at the end gives `len = 0`: the iterator stays where it is and `sout` grows until memory is
exhausted, modelled as an error (unreachable here because the text ends with a quote). -/
def unquoteLoop : Str → Res Str
  | [] => .ub
  | c :: cs =>
    if c = '"' then .ok []
    else if c = '\\' then
      match cs with
      | [] => .err
      | d :: ds => match decodeChar (c :: d :: ds) with
        | .ok (x, len) => if h : len = 0 then .err else (unquoteLoop ((c :: d :: ds).drop len)).map (x :: ·)
        | .err => .err
        | .ub => .ub
    else (unquoteLoop cs).map (c :: ·)
termination_by s => s.length
decreasing_by
  · simp only [List.length_drop, List.length_cons]
    omega
  · simp

/-- `try_unquoted` (string_tools.cpp:369-386). -/
def tryUnquoted (s : Str) : Res Str :=
  if s = [] ∨ s.head? ≠ some '"' ∨ s.getLast? ≠ some '"' then .ok s else unquoteLoop s.tail

/-- `get_filename_ext` (string_tools.cpp:405-414). -/
def getFilenameExt (s : Str) : Res Str :=
  match findLastOf ['.'] s with
  | some n => (substr s (n + 1) none).bind fun ext =>
      if (findLastOf ['/', '\\'] ext).isNone then .ok ext else .ok []
  | none => .ok []

/-- `get_filename_without_ext` (string_tools.cpp:416-421). -/
def getFilenameWithoutExt (s : Str) : Res Str :=
  (getFilenameExt s).bind fun ext =>
    substr s 0 (some (s.length - (if ext.length > 0 then ext.length + 1 else ext.length)))

end Xo
