import Verif.Model.CharStream
import Verif.Model.FlatMap

/-! Collections as text: `container_to_str` (xo/string/string_cast.h:54-66), `to_str( flat_set )`
(xo/container/flat_set.h:112-122) and the stream operators of `dynvec` (xo/geometry/dynvec.h:139-152). -/

namespace Xo.ContT
open Xo.CharS

/-- `container_to_str` (string_cast.h:55-62), `f` is `to_str` of an element. -/
def containerToStr {α : Type} (f : α → Str) (l : List α) : Str :=
  l.foldl (fun s e => s ++ (f e ++ [' '])) ['[', ' '] ++ [']']

/-- `to_str( flat_set )` (flat_set.h:114-122) with the elements `l` of the set. -/
def setToStr {α : Type} (f : α → Str) (l : List α) : Str :=
  match l with
  | [a] => f a
  | l => l.foldl (fun s e => s ++ (f e ++ [' '])) ['[', ' '] ++ [']']

/-- Vectors in vectors, `n` deep, with numbers in the innermost ones. -/
def Nest : Nat → Type
  | 0 => Int
  | n + 1 => List (Nest n)

/-- `to_str( vector<T> )` (string_cast.h:64-66) for vectors in vectors. -/
def nestToStr : (n : Nat) → Nest n → Str
  | 0, (v : Int) => intToStr v
  | n + 1, (l : List (Nest n)) => containerToStr (nestToStr n) l

/-- `operator<<( ostream, dynvec<int> )` (dynvec.h:140-148): what is added to the stream. -/
def writeVec (v : List Int) : Str :=
  match v with
  | [] => []
  | a :: t => t.foldl (fun s e => s ++ ' ' :: intToStr e) (intToStr a)

/-- A `std::istream`: the characters to come and its flags. -/
structure In where
  rest : Str
  eof : Bool
  fail : Bool
  deriving DecidableEq, Repr

/-- `str >> e` with an `int` that holds `old` (the C++ standard, [istream.formatted.arithmetic]): nothing
is done unless the stream is good; without any digits the number is zero; numbers out of range are
limited. The last two set the fail bit. -/
def In.int (s : In) (old : Int) : Int × In :=
  if s.eof || s.fail then (old, { s with fail := true })
  else if s.rest.dropWhile isSpaceC = [] then (old, ⟨[], true, true⟩)
  else
    let r := behind s.rest
    match readInt s.rest with
    | none => (0, ⟨r, r.isEmpty, true⟩)
    | some (neg, n) =>
      let v : Int := if neg then -(n : Int) else n
      if v < -2 ^ 31 then (-2 ^ 31, ⟨r, r.isEmpty, true⟩)
      else if 2 ^ 31 ≤ v then (2 ^ 31 - 1, ⟨r, r.isEmpty, true⟩)
      else (v, ⟨r, r.isEmpty, false⟩)

/-- `operator>>( istream, dynvec<int> )` (dynvec.h:151-152): every element is read, no size is read. -/
def readVec (s : In) : List Int → List Int × In
  | [] => ([], s)
  | e :: t => let (e', s') := s.int e; let (t', s'') := readVec s' t; (e' :: t', s'')

end Xo.ContT
