import Verif.Model.StrNum
import Verif.Model.Outcome

/-!
Model of /repo/xo/serialization/container_io.h, over a model of the parts of `std::istream` that it uses.
-/
namespace Xo.DataFile
open Xo Xo.Outc

/-- An input stream: the characters that are left, `eofbit` and `failbit`. -/
structure IS where
  rest : Str
  eof : Bool := false
  fail : Bool := false
  deriving DecidableEq

/-- `is.good()`. -/
def IS.good (s : IS) : Bool := !s.eof && !s.fail

/-- `is >> x`: the value of the variable and the stream afterwards. -/
abbrev Ext (T : Type) := IS → T × IS

/-- Formatted input of the standard library: without `good()` it fails; white space is skipped, and at the end it fails; `rd` takes the
characters of the value, and reaching the end while doing so sets `eofbit`. -/
def formatted {T : Type} (dflt : T) (rd : Str → Option T × Str) : Ext T := fun s =>
  if !s.good then (dflt, { s with fail := true })
  else match s.rest.dropWhile isSpaceC with
    | [] => (dflt, ⟨[], true, true⟩)
    | c :: cs =>
      let r := rd (c :: cs)
      (r.1.getD dflt, ⟨r.2, r.2.isEmpty, r.1.isNone⟩)

/-- An optional sign. -/
def signChars : Str → Bool × Str
  | '-' :: t => (true, t)
  | '+' :: t => (false, t)
  | t => (false, t)

/-- The value of decimal digits. -/
def digitsValue (ds : Str) : Nat := ds.foldl (fun acc c => acc * 10 + (c.toNat - '0'.toNat)) 0

/-- The characters of an `int` in base 10: an optional sign and digits; a number out of range fails. -/
def readIntChars (s : Str) : Option Int × Str :=
  let sg := signChars s
  let ds := sg.2.takeWhile isDigitC
  let v : Int := if sg.1 then -(digitsValue ds : Int) else digitsValue ds
  (if ds.isEmpty then none else if -2 ^ 31 ≤ v ∧ v < 2 ^ 31 then some v else none, sg.2.dropWhile isDigitC)

/-- `is >> i` for an `int`. -/
def extInt : Ext Int := formatted 0 readIntChars

/-- `is >> s` for a `std::string`: the characters up to the next white space. -/
def extWord : Ext Str := formatted [] fun s => (some (s.takeWhile (!isSpaceC ·)), s.dropWhile (!isSpaceC ·))

/-- `is >> p` for a pair (container_io.h:10-13). -/
def extPair {A B : Type} (ea : Ext A) (eb : Ext B) : Ext (A × B) := fun s =>
  let a := ea s
  let b := eb a.2
  ((a.1, b.1), b.2)

/-- The loop of `is >> v` for a vector (container_io.h:15-24), with at most `fuel` rounds; `none` when these do not suffice. -/
def extVec {T : Type} (e : Ext T) : Nat → IS → List T → Option (List T × IS)
  | 0, s, v => if s.good then none else some (v, s)
  | fuel + 1, s, v =>
    if s.good then
      let r := e s
      extVec e fuel r.2 (if r.2.good then v ++ [r.1] else v)
    else some (v, s)

/-- `read_data` for a vector (container_io.h:26-39). `file` is the text of the file, or `none` when it cannot be opened; `msg` are the texts of
the three errors. An empty file is good before the first read. -/
def readData {T : Type} (e : Ext T) (fuel : Nat) (m1 m2 m3 : Str) (file : Option Str) (w : World) : Option (End (List T) × World) :=
  match file with
  | some text => (extVec e fuel ⟨text, false, false⟩ []).map fun r =>
      match (if !r.2.eof then setErrorOrThrow w m1 else (.returns ⟨⟩, w)) with
      | (.throws m, w) => (.throws m, w)
      | (.returns _, w) =>
        match (if r.1.isEmpty then setErrorOrThrow w m2 else (.returns ⟨⟩, w)) with
        | (.throws m, w) => (.throws m, w)
        | (.returns _, w) => (.returns r.1, w)
  | none => some (match setErrorOrThrow w m3 with
      | (.throws m, w) => (.throws m, w)
      | (.returns _, w) => (.returns [], w))

end Xo.DataFile
