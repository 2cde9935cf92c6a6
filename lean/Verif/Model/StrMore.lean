import Verif.Model.StrTools

/-!
Model of the rest of /repo/xo/string/string_tools.cpp, of /repo/xo/string/stack_string.h, /repo/xo/string/dictionary.h and of
`tidy_identifier` (/repo/xo/system/system_tools.cpp:73-83).
-/
namespace Xo
namespace Text

/-- `str_begins_with( str, substr, start_pos )` (string_tools.cpp:66-69). `compare` takes at most the rest of the string. -/
def beginsAt (s pat : Str) (pos : Nat) : Bool := decide (pos < s.length) && (s.drop pos).take pat.length = pat

/-- `str_begins_with( str, c )` (string_tools.cpp:71-74). -/
def beginsChar (s : Str) (c : Char) : Bool := s.head? = some c

/-- `str_ends_with( str, c )` (string_tools.cpp:82-85). -/
def endsChar (s : Str) (c : Char) : Bool := s.getLast? = some c

/-- `str_contains( str, substr )` (string_tools.cpp:87-90). -/
def contains (s pat : Str) : Bool := (strFind s pat 0).isSome

/-- `str_contains( str, c )` (string_tools.cpp:92-95). -/
def containsChar (s : Str) (c : Char) : Bool := (s.findIdx? (· = c)).isSome

/-- `str_equals_any_of` (string_tools.cpp:274-280): the list holds C strings. -/
def equalsAny (s : Str) : List Str → Bool
  | [] => false
  | l :: ls => if s = cstr l then true else equalsAny s ls

/-- `std::tolower( c )` and `std::toupper( c )` in the C locale. A `char` above 127 is negative, which is outside the domain of
these functions, except for 255, which equals `EOF` and is returned as it is. -/
def mapCase (lo hi : Nat) (up : Bool) (c : Char) : Res Char :=
  if 128 ≤ c.toNat ∧ c.toNat ≠ 255 then .ub
  else if lo ≤ c.toNat ∧ c.toNat ≤ hi then .ok (Char.ofNat (if up then c.toNat - 32 else c.toNat + 32))
  else .ok c

/-- The loop of `to_lower` and `to_upper`. -/
def mapChars (f : Char → Res Char) : Str → Res Str
  | [] => .ok []
  | c :: cs => do
    let d ← f c
    let ds ← mapChars f cs
    pure (d :: ds)

/-- `to_lower` (string_tools.cpp:186-191). -/
def toLower (s : Str) : Res Str := mapChars (mapCase 65 90 false) s
/-- `to_upper` (string_tools.cpp:193-198). -/
def toUpper (s : Str) : Res Str := mapChars (mapCase 97 122 true) s

/-- `copy_str` (string_tools.cpp:214-223): the buffer after the call and the result; writing behind the buffer is undefined. -/
def copyStr (source buf : Str) : Res (Str × Nat) :=
  if buf.length > 0 then
    let n := min source.length (buf.length - 1)
    let b := source.take n ++ buf.drop n
    if n < b.length then .ok (b.set n (Char.ofNat 0), n) else .ub
  else .ok (buf, 0)

/-- `get_filename_folder` (string_tools.cpp:423-428). -/
def folder (s : Str) : Res Str :=
  match findLastOf ['/', '\\'] s with
  | some n => substr s 0 (some (n + 1))
  | none => .ok s

/-- `get_filename_without_folder` (string_tools.cpp:430-435). -/
def withoutFolder (s : Str) : Res Str :=
  match findLastOf ['/', '\\'] s with
  | some n => substr s (n + 1) none
  | none => .ok s

/-- The first loop of `tidy_identifier` (system_tools.cpp:77-78). -/
def skipUnder (s : Str) (pos : Nat) : Nat :=
  if h : pos < s.length then if s[pos] = '_' then skipUnder s (pos + 1) else pos else pos
termination_by s.length - pos

/-- The second loop of `tidy_identifier` (system_tools.cpp:80-81). -/
def backUnder (s : Str) : Nat → Nat
  | 0 => 0
  | e + 1 => if s[e]? = some '_' then backUnder s e else e + 1

/-- `tidy_identifier` (system_tools.cpp:73-83); the subtraction is unsigned with 64 bits. -/
def tidyIdentifier (s : Str) : Res Str :=
  let pos := match findLastOf ['.', ':'] s with
    | some p => p + 1
    | none => 0
  let pos := skipUnder s pos
  let e := backUnder s s.length
  substr s pos (some ((e + 2 ^ 64 - pos) % 2 ^ 64))

/-! ## `stack_string` -/

/-- `stack_string` (stack_string.h:8-22). -/
structure Stack where
  value : Str
  sizes : List Nat

/-- Calls. -/
inductive StackOp where
  | set (s : Str)
  | push (s : Str)
  | pop

/-- `set`, `push_back`, `pop_back` (stack_string.h:15-17). `back()` of an empty vector is undefined. -/
def Stack.step (st : Stack) : StackOp → Res Stack
  | .set s => .ok ⟨s, List.replicate (if s.isEmpty then 0 else 1) 0⟩
  | .push s => .ok ⟨st.value ++ s, st.sizes ++ [st.value.length]⟩
  | .pop =>
    match st.sizes.getLast? with
    | some n => .ok ⟨st.value.take n ++ List.replicate (n - st.value.length) (Char.ofNat 0), st.sizes.dropLast⟩
    | none => .ub

/-- A history of calls. -/
def Stack.run (st : Stack) : List StackOp → Res Stack
  | [] => .ok st
  | o :: os => do (← st.step o).run os

/-- `stack_string()` (stack_string.h:11). -/
def Stack.empty : Stack := ⟨[], []⟩

/-! ## `dictionary` -/

/-- `dictionary` (dictionary.h:9-38). -/
abbrev Dict (T : Type) := List (T × Str)

/-- `operator()( e )` (dictionary.h:16-20). -/
def Dict.name {T : Type} [DecidableEq T] (d : Dict T) (e : T) : Res Str :=
  match d.find? fun p => e = p.1 with
  | some p => .ok p.2
  | none => .err

/-- `operator()( str )` (dictionary.h:23-27). -/
def Dict.elem {T : Type} (d : Dict T) (s : Str) : Res T :=
  match d.find? fun p => s = p.2 with
  | some p => .ok p.1
  | none => .err

/-- `operator()( str, value_not_found )` (dictionary.h:30-33). -/
def Dict.elemOr {T : Type} (d : Dict T) (s : Str) (dflt : T) : T :=
  match d.find? fun p => s = p.2 with
  | some p => p.1
  | none => dflt

/-- `lookup` (dictionary.h:43-50). -/
def lookup {T : Type} (s : Str) : List (Str × T) → Res T
  | [] => .err
  | e :: es => if s = cstr e.1 then .ok e.2 else lookup s es

end Text
end Xo
