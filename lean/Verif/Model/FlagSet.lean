import Verif.Model.Basic

/-!
Model of /repo/xo/container/flag_set.h. `StorageT` is an unsigned type of `w` bits, flags are their integer values.
-/
namespace Xo

/-- `flag_set` (flag_set.h:88). -/
structure FlagSet (w : Nat) where
  data : BitVec w

namespace FlagSet
variable {w : Nat}

/-- `storage_bit( i, value )` (flag_set.h:86-87). A shift by the width or more is undefined (simplification: for
storage types narrower than `int` C++ promotes first, and shifts between `w` and 31 are defined there). -/
def storageBit (i : Nat) (value : Bool := true) : Res (BitVec w) :=
  if i < w then .ok ((BitVec.ofNat w value.toNat) <<< i) else .ub

/-- `get` and `operator()` (flag_set.h:21-29). -/
def get (s : FlagSet w) (i : Nat) : Res Bool := (storageBit i).bind fun b => .ok ((s.data &&& b) != 0#w)

/-- `set( index, value )` (flag_set.h:30-37). -/
def setTo (s : FlagSet w) (i : Nat) (v : Bool) : Res (FlagSet w) :=
  (storageBit i).bind fun b => (storageBit i v).bind fun bv => .ok ⟨(s.data &&& ~~~b) ||| bv⟩

/-- `set( index )` (flag_set.h:38-45). -/
def set (s : FlagSet w) (i : Nat) : Res (FlagSet w) := (storageBit i).bind fun b => .ok ⟨s.data ||| b⟩

/-- `clear< index >()` (flag_set.h:46-49). -/
def clear1 (s : FlagSet w) (i : Nat) : Res (FlagSet w) := (storageBit i).bind fun b => .ok ⟨s.data &&& ~~~b⟩

/-- `toggle` (flag_set.h:50-57). -/
def toggle (s : FlagSet w) (i : Nat) : Res (FlagSet w) := (s.get i).bind fun v => s.setTo i (!v)

/-- `set( flags )` (flag_set.h:58-61). -/
def setList (s : FlagSet w) : List Nat → Res (FlagSet w)
  | [] => .ok s
  | f :: fs => (s.set f).bind fun s' => setList s' fs

/-- `set( flags, value )` (flag_set.h:66-69). -/
def setListTo (s : FlagSet w) (v : Bool) : List Nat → Res (FlagSet w)
  | [] => .ok s
  | f :: fs => (s.setTo f v).bind fun s' => setListTo s' v fs

/-- `any( flags )` (flag_set.h:70-74). -/
def anyOf (s : FlagSet w) : List Nat → Res Bool
  | [] => .ok false
  | f :: fs => (s.get f).bind fun v => if v then .ok true else anyOf s fs

/-- `count( flags )` (flag_set.h:75-80). -/
def count (s : FlagSet w) : List Nat → Nat → Res Nat
  | [], c => .ok c
  | f :: fs, c => (s.get f).bind fun v => count s fs (c + v.toNat)

/-- `clear()` (flag_set.h:81). -/
def clearAll (_ : FlagSet w) : FlagSet w := ⟨0#w⟩

/-- `any()` (flag_set.h:82). -/
def any (s : FlagSet w) : Bool := s.data != 0#w

/-- `flag_set()` (flag_set.h:13). -/
def empty : FlagSet w := ⟨0#w⟩

end FlagSet
end Xo
