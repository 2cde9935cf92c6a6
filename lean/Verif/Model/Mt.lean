import Verif.Model.IeeeRandom

/-!
`random_number_generator_accurate` and `random_number_generator_default_msvc` (/repo/xo/numerical/random.h:32-33): the engine is
`std::mt19937`, which the C++ standard prescribes ([rand.eng.mers] with the parameters of [rand.predef]).
-/
namespace Xo
namespace Mt

/-- A word of the engine. -/
abbrev Word := BitVec 32

/-- The next word of the initial state: the word before and the index. -/
def seedNext (x : Word) (i : Nat) : Word := 1812433253#32 * (x ^^^ (x >>> 30)) + BitVec.ofNat 32 i

/-- The words of the initial state from index `i` on, after the word `x`; `n` words. -/
def seedWords : Nat → Word → Nat → List Word
  | 0, _, _ => []
  | n + 1, x, i => seedNext x i :: seedWords n (seedNext x i) (i + 1)

/-- The constructor and `seed` (random.h:15-16) : 624 words. The seed is an `unsigned int`. -/
def seedState (s : Nat) : List Word := BitVec.ofNat 32 s :: seedWords 623 (BitVec.ofNat 32 s) 1

/-- The upper bit of one word and the lower bits of the next one, times the matrix. -/
def twist (x y : Word) : Word :=
  let z := (x &&& 0x80000000#32) ||| (y &&& 0x7fffffff#32)
  (z >>> 1) ^^^ (if z.getLsbD 0 then 0x9908b0df#32 else 0#32)

/-- The word that is added to the state; the state has the last 624 words, oldest first. -/
def newWord (s : List Word) : Word := s.getD 397 0 ^^^ twist (s.getD 0 0) (s.getD 1 0)

/-- The tempering of a word. -/
def temper (x : Word) : Word :=
  let y := x ^^^ (x >>> 11)
  let y := y ^^^ ((y <<< 7) &&& 0x9d2c5680#32)
  let y := y ^^^ ((y <<< 15) &&& 0xefc60000#32)
  y ^^^ (y >>> 18)

/-- `re()` : the value and the state afterwards. -/
def draw (s : List Word) : Nat × List Word := ((temper (newWord s)).toNat, s.tail ++ [newWord s])

/-- The engine. -/
def mt19937 : Ieee.Engine (List Word) := ⟨draw, 2 ^ 32⟩

/-- What is done with a generator. -/
inductive Op where
  | seed (s : Nat)
  | draw

/-- One call: the values and the state. -/
def step (s : List Word) : Op → List Nat × List Word
  | .seed n => ([], seedState n)
  | .draw => ([(draw s).1], (draw s).2)

/-- A history of calls: the values that are drawn. -/
def run : List Word → List Op → List Nat
  | _, [] => []
  | s, op :: ops => (step s op).1 ++ run (step s op).2 ops

/-- The loop of `std::uniform_int_distribution` for an interval of `n` numbers (random.h:20-21) : libstdc++ multiplies a drawn
number with `n` and takes the upper half, and draws again when the lower half is below the threshold. `none`: still drawing. -/
def scaled (n : Nat) : Nat → List Word → Option (Nat × List Word)
  | 0, _ => none
  | fuel + 1, s =>
    let p := (draw s).1 * n
    if p % 2 ^ 32 < (2 ^ 32 - n) % n then scaled n fuel (draw s).2 else some (p / 2 ^ 32, (draw s).2)

/-- `uniform_int` (random.h:20-21) with a type of 32 bits: the whole range of the engine needs no loop. -/
def uniformInt (fuel : Nat) (lo hi : Int) (s : List Word) : Option (Int × List Word) :=
  let n := (hi - lo).toNat + 1
  if n = 2 ^ 32 then some (lo + (draw s).1, (draw s).2) else (scaled n fuel s).map fun r => (lo + r.1, r.2)

end Mt
end Xo
