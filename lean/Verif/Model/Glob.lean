import Verif.Model.StrTools

/-!
Model of `pattern_match` (/repo/xo/string/string_tools.cpp:388-396, the Linux branch) and `pattern_matcher`
(/repo/xo/string/pattern_matcher.h). `fnmatch` is a C library function; it is modelled with the flag `FNM_NOESCAPE` in the
C locale: `*` any run of characters, `?` one character, `[...]` one character of a set. Simplification: character
classes, collating symbols and equivalence classes inside brackets (`[:alpha:]`, `[.x.]`, `[=x=]`) are not modelled.
-/
namespace Xo
namespace Glob

/-- An element of a pattern. -/
inductive Tok
  | star
  | any
  | lit (c : Char)
  | set (neg : Bool) (ranges : List (Char × Char))
deriving DecidableEq, Repr

/-- The contents of a bracket up to the closing bracket; a bracket directly at the start is an ordinary character. Gives the
ranges and the rest of the pattern, or `none` without closing bracket. `fuel` is the number of characters. -/
def readSet : Nat → Bool → Str → Option (List (Char × Char) × Str)
  | 0, _, _ => none
  | _, _, [] => none
  | n + 1, first, a :: r =>
    if a = ']' ∧ first = false then some ([], r)
    else match r with
      | '-' :: b :: r' =>
        if b = ']' then (readSet n false r).map fun (l, t) => ((a, a) :: l, t)
        else (readSet n false r').map fun (l, t) => ((a, b) :: l, t)
      | r => (readSet n false r).map fun (l, t) => ((a, a) :: l, t)

/-- The contents of a bracket with its negation sign. -/
def readBracket : Str → Option (Bool × List (Char × Char) × Str)
  | '!' :: r => (readSet r.length true r).map fun (l, t) => (true, l, t)
  | '^' :: r => (readSet r.length true r).map fun (l, t) => (true, l, t)
  | r => (readSet r.length true r).map fun (l, t) => (false, l, t)

/-- The elements of a pattern; `fuel` is the number of characters. An unclosed bracket is an ordinary character. -/
def toksAux : Nat → Str → List Tok
  | 0, _ => []
  | _, [] => []
  | n + 1, c :: r =>
    if c = '*' then .star :: toksAux n r
    else if c = '?' then .any :: toksAux n r
    else if c = '[' then
      match readBracket r with
      | some (neg, l, t) => .set neg l :: toksAux n t
      | none => .lit c :: toksAux n r
    else .lit c :: toksAux n r

/-- The elements of a pattern. -/
def toks (p : Str) : List Tok := toksAux p.length p

/-- A single-character element accepts a character. -/
def accepts : Tok → Char → Bool
  | .star, _ => false
  | .any, _ => true
  | .lit a, c => a = c
  | .set neg l, c => (l.any fun r => decide (r.1.toNat ≤ c.toNat ∧ c.toNat ≤ r.2.toNat)) != neg

/-- Matching with backtracking. -/
def matchToks : List Tok → Str → Bool
  | [], s => s.isEmpty
  | .star :: ts, [] => matchToks ts []
  | .star :: ts, c :: s => matchToks ts (c :: s) || matchToks (.star :: ts) s
  | _ :: _, [] => false
  | t :: ts, c :: s => accepts t c && matchToks ts s
termination_by ts s => ts.length + s.length

/-- `pattern_match` (string_tools.cpp:388-396). The texts are C strings. -/
def patternMatch (s p : Str) : Bool := matchToks (toks (cstr p)) (cstr s)

/-- `pattern_matcher( pattern, delimiters )` and `match` (pattern_matcher.h:15-25). -/
def matcher (pattern delims s : Str) : Bool := (splitStr pattern delims).any fun p => patternMatch s p

/-- `str` (pattern_matcher.h:29). -/
def matcherStr (pattern delims : Str) : Str := concatList (splitStr pattern delims) [';']

/-- `is_pattern` (pattern_matcher.h:36-38). -/
def isPattern (s : Str) : Bool := (findFirstOf ['*', '?'] s).isSome

end Glob
end Xo
