import Verif.Model.Ieee
import Verif.Model.Rng

/-!
`uniform` and `uniform_vec3` of /repo/xo/numerical/random.h with rounding, for any engine. `std::generate_canonical` and
`std::uniform_real_distribution` are those of libstdc++ (bits/random.tcc). (Model/Rng.lean has them in exact arithmetic, for two
of the engines.)
-/
namespace Xo
namespace Ieee
open Num (Fl Fmt)

/-- An engine (the template argument of `random_number_generator_`, random.h:12): a value, counted from the smallest, with the
next state, and the number of values. -/
structure Engine (σ : Type) where
  draw : σ → Nat × σ
  range : Nat

/-- `std::minstd_rand` and `std::minstd_rand0` (random.h:31, 34), with the multiplier `a`. -/
def minstd (a : Nat) : Engine Nat := ⟨fun x => (Rng.next a x - 1, Rng.next a x), Rng.range⟩

/-- `tmp *= r` in `std::generate_canonical`: the product is formed in `long double`, where it is exact, and then rounded. -/
def scale (f : Fmt) (r : Nat) : Fl → Fl
  | .fin s m => ofRat f false (val (.fin s m) * r)
  | v => v

/-- The loop of `std::generate_canonical`: `k` more values; the sum, the scale and the state. -/
def canonLoop {σ : Type} (f : Fmt) (e : Engine σ) : Nat → σ → Fl → Fl → Fl × Fl × σ
  | 0, x, sum, tmp => (sum, tmp, x)
  | k + 1, x, sum, tmp =>
    canonLoop f e k (e.draw x).2 (add f sum (mul f (ofRat f false (e.draw x).1) tmp)) (scale f e.range tmp)

/-- `std::generate_canonical`, which replaces results from one on by the number before one. `k` is 1 for `float` and 2 for
`double`, for the engines of random.h. -/
def canonical {σ : Type} (f : Fmt) (e : Engine σ) (k : Nat) (x : σ) : Fl × σ :=
  let r := canonLoop f e k x (ofNat 0) (ofNat 1)
  let v := div f r.1 r.2.1
  (if le (ofNat 1) v then .fin false (1 - 1 / 2 ^ f.prec) else v, r.2.2)

/-- `uniform( min, max )` and `uniform( bounds )` (random.h:18-19). -/
def uniform {σ : Type} (f : Fmt) (e : Engine σ) (k : Nat) (lo hi : Fl) (x : σ) : Fl × σ :=
  let c := canonical f e k x
  (add f (mul f c.1 (sub f hi lo)) lo, c.2)

/-- `uniform_vec3( min, max )` (random.h:24). -/
def uniformVec3 {σ : Type} (f : Fmt) (e : Engine σ) (k : Nat) (lo hi : Fl) (x : σ) : (Fl × Fl × Fl) × σ :=
  let p := uniform f e k lo hi x
  let q := uniform f e k lo hi p.2
  let r := uniform f e k lo hi q.2
  ((p.1, q.1, r.1), r.2)

/-- A sequence of calls of `uniform` with bounds. -/
def uniforms {σ : Type} (f : Fmt) (e : Engine σ) (k : Nat) : List (Fl × Fl) → σ → List Fl
  | [], _ => []
  | (lo, hi) :: bs, x => (uniform f e k lo hi x).1 :: uniforms f e k bs (uniform f e k lo hi x).2

end Ieee
end Xo
