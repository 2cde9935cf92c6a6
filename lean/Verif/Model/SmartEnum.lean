import Verif.Model.StrTools

/-!
Model of /repo/xo/utility/smart_enum.h. `va` is the text of the macro arguments (`#__VA_ARGS__`), a C string without
NUL. An enumerator is its integer value.
-/
namespace Xo.SmartEnum

/-- `sep_chars` (smart_enum.h:9). -/
def isSep (c : Char) : Bool := c == ' ' || c == ',' || c == '\t' || c == '\n' || c == '\r'

/-- `std::strcspn( va, sep_chars )`: the length of the leading text without separators. -/
def cspn (va : Str) : Nat := (va.takeWhile fun c => !isSep c).length

/-- `std::strspn( va, sep_chars )`. -/
def spn (va : Str) : Nat := (va.takeWhile isSep).length

theorem progress {va : Str} (h : va ≠ []) : 0 < cspn va + spn (va.drop (cspn va)) := by
  cases va with
  | nil => exact absurd rfl h
  | cons c cs =>
    by_cases hc : isSep c = true
    · simp [cspn, spn, hc]
    · simp [cspn, hc]; omega

/-- The loop of `from_str` (smart_enum.h:10-20) from the `i`-th enumerator on; `none` is `false`. A text that has
the length of the token and whose first characters compare equal is the token. -/
def fromStrLoop (str : Str) (va : Str) (i : Nat) : Option Nat :=
  if h : va = [] then none
  else
    let n := cspn va
    if str.length = n ∧ va.take n = str then some i
    else fromStrLoop str (va.drop (n + spn (va.drop n))) (i + 1)
termination_by va.length
decreasing_by
  have := progress h
  have hl : 0 < va.length := List.length_pos_iff.2 h
  simp only [List.length_drop]
  omega

/-- `from_str` (smart_enum.h:10-20). -/
def fromStr (str va : Str) : Option Nat := fromStrLoop str va 0

/-- The loop of `to_str` (smart_enum.h:21-25): `e` more rounds while there is text. -/
def skip : Nat → Str → Str
  | 0, va => va
  | e + 1, va => if va = [] then va else skip e ((va.drop (cspn va)).drop (spn (va.drop (cspn va))))

/-- `to_str` (smart_enum.h:21-27); a negative value makes no round. -/
def toStr (e : Int) (va : Str) : Str :=
  let va := skip e.toNat va
  va.take (cspn va)

/-- White space as `istream >> string` sees it. -/
def isBlank (c : Char) : Bool := c == ' ' || c == '\t' || c == '\n' || c == '\r' || c == '\x0b' || c == '\x0c'

/-- `operator>>` (smart_enum.h:34) on a stream in a good state with the text `input` left: the enumerator afterwards
and whether the stream has failed. `istr >> s` sets `failbit` if there is no word, and `eofbit` if the word reaches
the end of the text; `good()` is false in both cases. -/
def readStream (va input : Str) (e : Int) : Int × Bool :=
  let rest := input.dropWhile isBlank
  let word := rest.takeWhile fun c => !isBlank c
  let after := rest.dropWhile fun c => !isBlank c
  if word = [] then (e, true)
  else if after = [] then (e, false)
  else match fromStr word va with
    | some i => (i, false)
    | none => (e, true)

end Xo.SmartEnum
