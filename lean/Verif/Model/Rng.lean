import Verif.Model.Basic
import Verif.Model.Zml
import Mathlib.Algebra.Field.Basic

/-!
Model of /repo/xo/numerical/random.h for `random_number_generator_fast` (`std::minstd_rand`), `random_number_generator_default_gcc`
(`std::minstd_rand0`) and, with gcc, `random_number_generator_default` (`std::default_random_engine` is `std::minstd_rand0`).

The engines and `std::generate_canonical` are those that the C++ standard prescribes ([rand.eng.lcong], [rand.predef], [rand.util.canonical]);
`std::uniform_real_distribution` and `std::uniform_int_distribution` are those of libstdc++. Numbers are elements of a field: rounding is
modelled in Model/IeeeRandom.lean. `std::mt19937` and `std::normal_distribution` are not modelled.
-/
namespace Xo.Rng

/-- The modulus of both engines. -/
def modulus : Nat := 2147483647

/-- The multiplier of `std::minstd_rand`. -/
def fast : Nat := 48271
/-- The multiplier of `std::minstd_rand0`. -/
def gcc : Nat := 16807

/-- The constructor and `seed` (random.h:15-16) : the state of a linear congruential engine with increment zero. -/
def seedState (s : Nat) : Nat := if s % modulus = 0 then 1 else s % modulus

/-- `re()` : the value, which is the new state. -/
def next (a x : Nat) : Nat := a * x % modulus

/-- `max() - min() + 1` of both engines, whose values are from 1 to `modulus - 1`. -/
def range : Nat := modulus - 1

variable {K : Type} [Field K]

/-- The loop of `std::generate_canonical` : `k` more values; the sum, the scale and the state. -/
def canonLoop (a : Nat) : Nat → Nat → K → K → K × K × Nat
  | 0, x, sum, tmp => (sum, tmp, x)
  | k + 1, x, sum, tmp => canonLoop a k (next a x) (sum + ((next a x : K) - 1) * tmp) (tmp * (range : K))

/-- `std::generate_canonical`; `k` is 1 for `float` and 2 for `double`. -/
def canonical (a k x : Nat) : K × Nat :=
  let r := canonLoop a k x (0 : K) 1
  (r.1 / r.2.1, r.2.2)

/-- `uniform( min, max )` and `uniform( bounds )` (random.h:18-19). -/
def uniform (a k : Nat) (lo hi : K) (x : Nat) : K × Nat :=
  let c := canonical (K := K) a k x
  (c.1 * (hi - lo) + lo, c.2)

/-- `uniform_vec3( min, max )` (random.h:24): the values in braces are computed from left to right. -/
def uniformVec3 (a k : Nat) (lo hi : K) (x : Nat) : (K × K × K) × Nat :=
  let p := uniform a k lo hi x
  let q := uniform a k lo hi p.2
  let r := uniform a k lo hi q.2
  ((p.1, q.1, r.1), r.2)

/-- The loop that draws until a value, counted from zero, is below `past`. `div` : not within `fuel` draws. -/
def reject (a past : Nat) : Nat → Nat → Out Nat
  | 0, _ => .div
  | fuel + 1, x => if next a x - 1 < past then .ok (next a x) else reject a past fuel (next a x)

/-- A whole number from 0 to `u` in `std::uniform_int_distribution`, with `u` below the largest value of the engine, counted from zero. -/
def narrow (a fuel u x : Nat) : Out (Nat × Nat) :=
  let scaling := (range - 1) / (u + 1)
  reject a ((u + 1) * scaling) fuel x >>= fun g => .ok ((g - 1) / scaling, g)

/-- The loop of `std::uniform_int_distribution` with `u` above the largest value of the engine: a number from 0 to `u / range` is drawn for
the high part, and a value of the engine for the low part, until their sum is not above `u`. The calculation has 64 bits. `div` : not within
`n` rounds. -/
def wide (a fuel u : Nat) : Nat → Nat → Out (Nat × Nat)
  | 0, _ => .div
  | n + 1, x => narrow a fuel (u / range) x >>= fun (h, y) =>
    let tmp := range * h % 2 ^ 64
    let ret := (tmp + (next a y - 1)) % 2 ^ 64
    if u < ret ∨ ret < tmp then wide a fuel u n (next a y) else .ok (ret, next a y)

/-- `uniform_int( min, max )` and `uniform_int( bounds )` (random.h:20-21), for types of up to 32 bits (the high part of a wider interval may
again need two values of the engine). -/
def uniformInt (a fuel : Nat) (lo hi : Int) (x : Nat) : Out (Int × Nat) :=
  let u := (hi - lo).toNat
  if u < range - 1 then narrow a fuel u x >>= fun (v, y) => .ok (lo + (v : Int), y)
  else if u = range - 1 then .ok (lo + ((next a x - 1 : Nat) : Int), next a x)
  else wide a fuel u fuel x >>= fun (v, y) => .ok (lo + (v : Int), y)

/-- What a program does with a generator. -/
inductive Op (K : Type) where
  | seed (s : Nat)
  | uniform (lo hi : K)
  | int (lo hi : Int)
  | vec3 (lo hi : K)

/-- What the calls return. -/
inductive Val (K : Type) where
  | none
  | num (v : K)
  | int (v : Out Int)
  | vec (v : K × K × K)

/-- One call: its value and the state afterwards. -/
def step (a k fuel x : Nat) : Op K → Val K × Nat
  | .seed s => (.none, seedState s)
  | .uniform lo hi => (.num (uniform a k lo hi x).1, (uniform a k lo hi x).2)
  | .int lo hi => match uniformInt a fuel lo hi x with
    | .ok (v, y) => (.int (.ok v), y)
    | .err => (.int .err, x)
    | .ub => (.int .ub, x)
    | .div => (.int .div, x)
  | .vec3 lo hi => (.vec (uniformVec3 a k lo hi x).1, (uniformVec3 a k lo hi x).2)

/-- A program: what its calls return, and the state afterwards. -/
def run (a k fuel : Nat) : Nat → List (Op K) → List (Val K) × Nat
  | x, [] => ([], x)
  | x, op :: ops =>
    let s := step a k fuel x op
    let r := run a k fuel s.2 ops
    (s.1 :: r.1, r.2)

end Xo.Rng
