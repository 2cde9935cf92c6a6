import Verif.Model.Basic

/-!
Model of the integer text conversions of /repo/xo/string/string_cast.cpp:33-73, 94-122 and of the C library
functions they call. A C++ `char` is a `Char` with code below 256.
-/
namespace Xo

/-- A C++ `std::string`. -/
abbrev Str := List Char

/-- `isspace` in the C locale, as used by `strtol`. -/
def isSpaceC (c : Char) : Bool := c = ' ' || (9 ≤ c.toNat && c.toNat ≤ 13)

/-- Decimal digit. -/
def isDigitC (c : Char) : Bool := 48 ≤ c.toNat && c.toNat ≤ 57

/-- The leading digits of a text, most significant first: number and whether there is any. -/
def readDigits : Nat → Bool → Str → Nat × Bool
  | acc, any, [] => (acc, any)
  | acc, any, c :: cs => if isDigitC c then readDigits (acc * 10 + (c.toNat - 48)) true cs else (acc, any)

/-- Sign and digits: `strtol`'s subject sequence, base 10, without range limits. `none`: no conversion
(the end pointer equals the start). -/
def readInt (s : Str) : Option (Bool × Nat) :=
  let s := s.dropWhile isSpaceC
  let (neg, s) := match s with
    | '-' :: t => (true, t)
    | '+' :: t => (false, t)
    | t => (false, t)
  match readDigits 0 false s with
  | (n, true) => some (neg, n)
  | (_, false) => none

/-- `strtol`/`strtoll` with 64-bit `long` (Linux): saturates at the ends of the range. -/
def strtol (s : Str) : Option Int :=
  (readInt s).map fun (neg, n) =>
    if neg then (if n > 2 ^ 63 then -2 ^ 63 else -(n : Int)) else (if n ≥ 2 ^ 63 then 2 ^ 63 - 1 else (n : Int))

/-- `strtoul`/`strtoull` with 64 bits: saturates, and negates in unsigned arithmetic after a minus sign. -/
def strtoul (s : Str) : Option Nat :=
  (readInt s).map fun (neg, n) =>
    if n ≥ 2 ^ 64 then 2 ^ 64 - 1 else if neg then (2 ^ 64 - n) % 2 ^ 64 else n

/-- Conversion of a `long` to `int`: keeps the low 32 bits (two's complement). -/
def toInt32 (v : Int) : Int := (v + 2 ^ 31) % 2 ^ 32 - 2 ^ 31

/-- `from_str( s, int& )` (string_cast.cpp:33-38). -/
def fromStrInt (s : Str) : Option Int := (strtol s).map toInt32
/-- `from_str( s, unsigned int& )` (string_cast.cpp:40-45). -/
def fromStrUInt (s : Str) : Option Nat := (strtoul s).map (· % 2 ^ 32)
/-- `from_str( s, long& )` and `long long` (string_cast.cpp:47-52, 61-66). -/
def fromStrLong (s : Str) : Option Int := strtol s
/-- `from_str( s, unsigned long& )`, `unsigned long long` and `index_t` (string_cast.cpp:54-59, 68-73). -/
def fromStrULong (s : Str) : Option Nat := strtoul s

/-- The digits of a number, least significant first, `fuel` digits at most. -/
def digitsRev : Nat → Nat → List Char
  | 0, _ => []
  | fuel + 1, n => Char.ofNat (48 + n % 10) :: (if n / 10 = 0 then [] else digitsRev fuel (n / 10))

/-- `std::to_string` of a natural number (string_cast.cpp:99-122). -/
def natToStr (n : Nat) : Str := (digitsRev (n + 1) n).reverse

/-- `std::to_string` of an integer (string_cast.cpp:94-117). -/
def intToStr (v : Int) : Str := if v < 0 then '-' :: natToStr v.natAbs else natToStr v.natAbs

end Xo
