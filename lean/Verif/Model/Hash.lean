import Verif.Model.Basic

/-!
Model of /repo/xo/utility/hash.h. A `char` is a byte; like on every platform with a signed `char` (x86), it is sign
extended when it meets a 64-bit operand. A C string is the list of bytes from the pointer on; the end of the list
stands for the terminating NUL, and a zero byte inside it ends the string earlier.
-/
namespace Xo
namespace Hash

/-- `fnv1a_64_prime` (hash.h:15). -/
def prime : BitVec 64 := 0x100000001B3#64

/-- `fnv1a_64_basis` (hash.h:16). -/
def basis : BitVec 64 := 0xCBF29CE484222325#64

/-- `hash_constexpr( str, last_value )` (hash.h:18-19). -/
def hashConstexpr : List (BitVec 8) → BitVec 64 → BitVec 64
  | [], last => last
  | c :: s, last => if c ≠ 0#8 then hashConstexpr s ((c.signExtend 64 ^^^ last) * prime) else last

/-- The loop of `hash` (hash.h:23). -/
def hashLoop : List (BitVec 8) → BitVec 64 → BitVec 64
  | [], ret => ret
  | c :: s, ret => if c = 0#8 then ret else
    let ret := ret ^^^ c.signExtend 64
    let ret := ret * prime
    hashLoop s ret

/-- `hash( char const* )` (hash.h:21-25). -/
def cHash (s : List (BitVec 8)) : BitVec 64 := hashLoop s basis

/-- `hash( const std::string& )` (hash.h:27): passes `c_str()`. -/
def hashString (s : List (BitVec 8)) : BitVec 64 := cHash s

/-- `operator""_hash` (hash.h:30); the length is not used. -/
def literalHash (p : List (BitVec 8)) (_len : Nat) : BitVec 64 := hashConstexpr p basis

end Hash
end Xo
