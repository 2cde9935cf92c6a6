import Verif.Model.Storage
import Verif.Model.NumText
import Verif.Model.StrTools

/-!
Storages as text: `operator<<` and `operator>>` of /repo/xo/container/storage.h:167-199, and how `char_stream` reads numbers
(/repo/xo/serialization/char_stream.h:33-34, 70-72).
-/
namespace Xo
namespace Num

/-- The text behind an exponent, or the same text if there is none: the letter counts only with a digit behind it. -/
def expRest (cs : Str) : Str → Str
  | [] => []
  | c :: t => if c ∈ cs ∧ (splitSign t).2.takeWhile isDigitC ≠ [] then (splitSign t).2.dropWhile isDigitC else c :: t

/-- The text behind digits, a decimal point and digits, and an exponent. -/
def realRest (isD : Char → Bool) (cs : Str) (s : Str) : Str :=
  expRest cs (match s.dropWhile isD with
    | '.' :: t => t.dropWhile isD
    | r => r)

/-- The text behind an unsigned number (see `readMag`). -/
def magRest (s : Str) : Str :=
  match s with
  | '0' :: x :: t =>
    if lower x = 'x' then
      match readReal isHexC 16 2 ['p', 'P'] t with
      | some _ => realRest isHexC ['p', 'P'] t
      | none => realRest isDigitC ['e', 'E'] s
    else realRest isDigitC ['e', 'E'] s
  | _ => realRest isDigitC ['e', 'E'] s

/-- A character that may stand in the brackets of a NaN. -/
def isNanC (c : Char) : Bool := c.isAlphanum || c = '_'

/-- The text behind what `strtof`, `strtod` have read (their second argument), if there was a conversion. -/
def strtodRest (s : Str) : Str :=
  let t := (splitSign (s.dropWhile isSpaceC)).2
  if (t.take 3).map lower = "inf".toList then
    if (t.take 8).map lower = "infinity".toList then t.drop 8 else t.drop 3
  else if (t.take 3).map lower = "nan".toList then
    match t.drop 3 with
    | '(' :: u => match u.dropWhile isNanC with
      | ')' :: w => w
      | _ => '(' :: u
    | r => r
  else magRest t

end Num

namespace StoText
open Num

/-- How a type of numbers is written to a stream and read by `char_stream`: `inp` gives the value and the text behind it; `none` is no
conversion, in which case the value is `zero`. -/
structure Codec (T : Type) where
  out : T → Str
  inp : Str → Option (T × Str)
  zero : T

/-- `float` or `double`. A stream writes with six digits, as `%g` does; `strtof`, `strtod` read. -/
def flCodec (f : Fmt) : Codec Fl := ⟨toStr, fun s => (strtod f s).map fun v => (v, strtodRest s), .fin false 0⟩

variable {T : Type}

/-- One line of `operator<<` (storage.h:168-171, 173-176). -/
def line : List Str → Str
  | [] => []
  | [t] => t ++ ['\n']
  | t :: ts => t ++ '\t' :: line ts

/-- `operator<<` (storage.h:167-179). -/
def writeText (C : Codec T) (s : Storage T Str) : Res Str :=
  ((List.range s.channels).mapM fun c => s.labels.at' c).bind fun ls =>
  ((List.range s.frames).mapM fun f => (List.range s.channels).mapM fun c => s.get f c).bind fun rows =>
  .ok (line ls ++ (rows.map fun r => line (r.map C.out)).flatten)

/-- The lines that `std::getline` gives (storage.h:183, 187): there is none behind the last line end. -/
def lines : Str → List Str
  | [] => []
  | c :: cs => if c = '\n' then [] :: lines cs else
    match lines cs with
    | [] => [[c]]
    | l :: ls => (c :: l) :: ls

/-- `whitespace_characters` (xo_types.h:33), which are the delimiters of `char_stream` (char_stream.h:20). -/
def blanks : Str := [' ', '\t', '\r', '\n', Char.ofNat 12, Char.ofNat 11]

/-- `skip_delimiters` (char_stream.h:70): `strchr` also finds the terminating zero, but a text from `c_str` has none inside. -/
def skip (s : Str) : Str := s.dropWhile fun c => blanks.contains c

/-- A `char_stream`: the text from the current position, and `good()`. -/
structure Chars where
  rest : Str
  good : Bool

/-- `operator>>( float& )`, `operator>>( double& )` (char_stream.h:33-34): the value and the new state. -/
def Chars.num (C : Codec T) (s : Chars) : T × Chars :=
  match C.inp (skip s.rest) with
  | some (v, r) => (v, ⟨r, s.good && !(skip s.rest).isEmpty⟩)
  | none => (C.zero, ⟨skip s.rest, false⟩)

/-- The loop over the channels (storage.h:190-191), from channel `ci`; `n` more channels. -/
def cells (C : Codec T) (f : Nat) : Nat → Nat → Chars → Storage T Str → Res (Storage T Str)
  | _, 0, _, s => .ok s
  | ci, n + 1, cs, s =>
    if cs.good then (s.write f ci (cs.num C).1).bind (cells C f (ci + 1) n (cs.num C).2) else .ok s

/-- One line with values (storage.h:188-191). -/
def readRow (C : Codec T) (s : Storage T Str) (l : Str) : Res (Storage T Str) :=
  cells C s.frames 0 s.channels ⟨cstr l, true⟩ (s.addFrame C.zero)

/-- The labels (storage.h:185-186). The state of the storage after an error is not looked at. -/
def addLabels (C : Codec T) : List Str → Storage T Str → Res (Storage T Str)
  | [], s => .ok s
  | l :: ls, s => match s.addChannel [] l C.zero with
    | (.ok _, s') => addLabels C ls s'
    | (.err, _) => .err
    | (.ub, _) => .ub

/-- `operator>>` (storage.h:181-197). -/
def readText (C : Codec T) (s : Storage T Str) (text : Str) : Res (Storage T Str) :=
  match lines text with
  | [] => .ok s
  | l :: ls => (addLabels C (splitStr l "\t ".toList) s).bind fun s => ls.foldlM (readRow C) s

end StoText
end Xo
