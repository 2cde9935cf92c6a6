import Verif.Model.StrNum
import Mathlib.Data.Int.Log
import Mathlib.Data.Rat.Floor

/-!
Model of the text conversions of `float`, `double` and `bool` in /repo/xo/string/string_cast.cpp:10-31, 75-92, and of
the C library functions they call: `snprintf( "%g" )`, `strtof`, `strtod` (round to nearest, ties to even, as in glibc).
A finite floating-point number is its sign and its magnitude, an exact rational.
-/
namespace Xo
namespace Num

/-- A binary floating-point format: bits of the significand, exponent of the smallest positive number, exponent of the
smallest power of two that is too big. -/
structure Fmt where
  prec : Nat
  emin : Int
  emax : Int

/-- `float` (IEEE 754 binary32). -/
def binary32 : Fmt := ⟨24, -149, 128⟩
/-- `double` (IEEE 754 binary64). -/
def binary64 : Fmt := ⟨53, -1074, 1024⟩

/-- A floating-point value; `neg` is the sign bit. -/
inductive Fl where
  | nan (neg : Bool)
  | inf (neg : Bool)
  | fin (neg : Bool) (mag : Rat)
  deriving DecidableEq

/-- Rounding to a whole number, ties to even. -/
def rhe (x : Rat) : Int :=
  if x - ⌊x⌋ < 1 / 2 then ⌊x⌋
  else if 1 / 2 < x - ⌊x⌋ then ⌊x⌋ + 1
  else if ⌊x⌋ % 2 = 0 then ⌊x⌋ else ⌊x⌋ + 1

/-- The exponent of the last bit of a magnitude in a format. -/
def ulpExp (f : Fmt) (x : Rat) : Int := max (Int.log 2 x - ((f.prec : Int) - 1)) f.emin

/-- A magnitude rounded to a format; `none` is infinity. -/
def rnd (f : Fmt) (x : Rat) : Option Rat :=
  let e := ulpExp f x
  let r := (rhe (x / 2 ^ e) : Rat) * 2 ^ e
  if 2 ^ f.emax ≤ r then none else some r

/-! ## Writing -/

/-- The six digits, as one number, and the decimal exponent of a positive magnitude (`%e` with precision 5). -/
def sci (x : Rat) : Int × Int :=
  let e := Int.log 10 x
  let d := rhe (x / 10 ^ (e - 5))
  if d = 1000000 then (100000, e + 1) else (d, e)

/-- Trailing zeros removed. -/
def strip (ds : Str) : Str := (ds.reverse.dropWhile (· = '0')).reverse

/-- Digits in front of and behind the decimal point, which is left out when there are no digits behind it. -/
def withFrac (ip fp : Str) : Str := if fp = [] then ip else ip ++ '.' :: fp

/-- The exponent: a sign and at least two digits. -/
def expText (x : Int) : Str :=
  (if x < 0 then '-' else '+') :: (if x.natAbs < 10 then '0' :: natToStr x.natAbs else natToStr x.natAbs)

/-- `%g` of a magnitude. -/
def gMag (x : Rat) : Str :=
  if x = 0 then ['0']
  else
    let d := (sci x).1
    let e := (sci x).2
    let ds := natToStr d.toNat
    if e < -4 ∨ 6 ≤ e then withFrac (ds.take 1) (strip (ds.drop 1)) ++ 'e' :: expText e
    else if e < 0 then withFrac ['0'] (strip (List.replicate (-e - 1).toNat '0' ++ ds))
    else withFrac (ds.take (e + 1).toNat) (strip (ds.drop (e + 1).toNat))

/-- A minus sign for the sign bit. -/
def signText (neg : Bool) : Str := if neg then ['-'] else []

/-- `to_str( float )`, `to_str( double )` (string_cast.cpp:75-87). The buffer has 32 characters, enough for every text
(`C72_buffer`). -/
def toStr : Fl → Str
  | .nan neg => signText neg ++ "nan".toList
  | .inf neg => signText neg ++ "inf".toList
  | .fin neg x => signText neg ++ gMag x

/-! ## Reading -/

/-- A hexadecimal digit. -/
def isHexC (c : Char) : Bool := isDigitC c || (65 ≤ c.toNat && c.toNat ≤ 70) || (97 ≤ c.toNat && c.toNat ≤ 102)

/-- The value of a decimal or hexadecimal digit. -/
def digVal (c : Char) : Nat :=
  if c.toNat ≤ 57 then c.toNat - 48 else if c.toNat ≤ 70 then c.toNat - 55 else c.toNat - 87

/-- The number written by digits. -/
def digsVal (base : Nat) (ds : Str) : Nat := ds.foldl (fun a c => a * base + digVal c) 0

/-- An optional sign. -/
def splitSign : Str → Bool × Str
  | '-' :: t => (true, t)
  | '+' :: t => (false, t)
  | t => (false, t)

/-- The exponent behind the digits: one of the letters `cs`, an optional sign and digits; 0 if that is not there. -/
def readExp (cs : Str) : Str → Int
  | [] => 0
  | c :: t =>
    if c ∈ cs then
      let ds := (splitSign t).2.takeWhile isDigitC
      if (splitSign t).1 then -(digsVal 10 ds : Int) else digsVal 10 ds
    else 0

/-- Digits, a decimal point and digits, an exponent; `none` if there is no digit. `base` and `ebase` are 10 and 10, or 16
and 2. -/
def readReal (isD : Char → Bool) (base ebase : Nat) (cs : Str) (s : Str) : Option Rat :=
  let ip := s.takeWhile isD
  let r := s.dropWhile isD
  let fp := match r with
    | '.' :: t => t.takeWhile isD
    | _ => []
  let r' := match r with
    | '.' :: t => t.dropWhile isD
    | r => r
  if ip = [] ∧ fp = [] then none
  else some ((digsVal base (ip ++ fp) : Rat) * (base : Rat) ^ (-(fp.length : Int)) * (ebase : Rat) ^ readExp cs r')

/-- Small letters. -/
def lower (c : Char) : Char := if 65 ≤ c.toNat ∧ c.toNat ≤ 90 then Char.ofNat (c.toNat + 32) else c

/-- The exact value of an unsigned number: hexadecimal behind `0x` if that can be read, else decimal. -/
def readMag (s : Str) : Option Rat :=
  match s with
  | '0' :: x :: t =>
    if lower x = 'x' then
      match readReal isHexC 16 2 ['p', 'P'] t with
      | some v => some v
      | none => readReal isDigitC 10 10 ['e', 'E'] s
    else readReal isDigitC 10 10 ['e', 'E'] s
  | _ => readReal isDigitC 10 10 ['e', 'E'] s

/-- A magnitude rounded to a format, with its sign. -/
def roundFl (f : Fmt) (neg : Bool) (x : Rat) : Fl :=
  match rnd f x with
  | some r => .fin neg r
  | none => .inf neg

/-- `strtof`, `strtod`; `none`: no conversion. -/
def strtod (f : Fmt) (s : Str) : Option Fl :=
  let s := s.dropWhile isSpaceC
  let neg := (splitSign s).1
  let s := (splitSign s).2
  if (s.take 3).map lower = "inf".toList then some (.inf neg)
  else if (s.take 3).map lower = "nan".toList then some (.nan neg)
  else (readMag s).map (roundFl f neg)

/-- `from_str( s, float& )` (string_cast.cpp:10-15). -/
def fromStrFloat (s : Str) : Option Fl := strtod binary32 s
/-- `from_str( s, double& )` (string_cast.cpp:17-22). -/
def fromStrDouble (s : Str) : Option Fl := strtod binary64 s

/-- `to_str( bool )` (string_cast.cpp:89-92). -/
def boolToStr (b : Bool) : Str := if b then ['1'] else ['0']

/-- `from_str( s, bool& )` (string_cast.cpp:24-31). -/
def fromStrBool (s : Str) : Option Bool :=
  if s ∈ ["1".toList, "true".toList, "yes".toList] then some true
  else if s ∈ ["0".toList, "false".toList, "no".toList] then some false
  else none

/-- Calls that involve the precision of `to_str` (string_tools.cpp:27, 282-286; string_cast.cpp:75-87). -/
inductive PrecOp where
  | set (p : Int)
  | get
  | text (v : Fl)

/-- What such a call returns. -/
inductive PrecOut where
  | num (p : Int)
  | text (s : Str)
  deriving DecidableEq

/-- One call: the new value of `to_str_precision_value` and the result. `to_str` does not read the variable. -/
def PrecOp.run (prec : Int) : PrecOp → Int × PrecOut
  | .set p => (p, .num prec)
  | .get => (prec, .num prec)
  | .text v => (prec, .text (toStr v))

/-- A sequence of calls; the variable starts as 4 (string_tools.cpp:27). -/
def runPrec : Int → List PrecOp → Int × List PrecOut
  | prec, [] => (prec, [])
  | prec, o :: os =>
    let r := o.run prec
    let rs := runPrec r.1 os
    (rs.1, r.2 :: rs.2)

end Num
end Xo
