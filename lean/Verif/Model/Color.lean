import Verif.Model.Math
import Mathlib.Analysis.Real.Sqrt

/-!
Model of /repo/xo/utility/color.h and color.cpp. Components are elements of an ordered field with `floor`, without
rounding (`K`), or real numbers where a root is needed. Reading a colour from a `prop_node` (color.cpp:13-61) is not
modelled here.
-/
namespace Xo
namespace Col

/-- `color` (color.h:14). -/
@[ext] structure Color (K : Type) where
  r : K
  g : K
  b : K
  a : K
  deriving DecidableEq

section
variable {K : Type} [Field K] [LinearOrder K] [FloorRing K]

/-- `color()` (color.h:10). -/
def default : Color K := ⟨0, 0, 0, 1⟩

/-- The constructor from `float`s (color.h:11). -/
def ofFloat (r g b : K) (a : K := 1) : Color K := ⟨r, g, b, a⟩

/-- The constructor from `double`s (color.h:12): the fourth component is set from `pb`, not `pa`. -/
def ofDouble (r g b : K) (_a : K := 1) : Color K := ⟨r, g, b, b⟩

/-- `red` (color.h:16). -/
def red (br sat : K) : Color K := ofFloat br (br * (1 - sat)) (br * (1 - sat))
/-- `orange` (color.h:17). -/
def orange (br sat : K) : Color K := ofFloat br (1 / 2 * br + 1 / 2 * br * (1 - sat)) (br * (1 - sat))
/-- `yellow` (color.h:18). -/
def yellow (br sat : K) : Color K := ofFloat br br (br * (1 - sat))
/-- `green` (color.h:19). -/
def green (br sat : K) : Color K := ofFloat (br * (1 - sat)) br (br * (1 - sat))
/-- `cyan` (color.h:20). -/
def cyan (br sat : K) : Color K := ofFloat (br * (1 - sat)) br br
/-- `blue` (color.h:21). -/
def blue (br sat : K) : Color K := ofFloat (br * (1 - sat)) (br * (1 - sat)) br
/-- `magenta` (color.h:22). -/
def magenta (br sat : K) : Color K := ofFloat br (br * (1 - sat)) br
/-- `white` (color.h:23). -/
def white (br : K) : Color K := ofFloat br br br

/-- `is_null` (color.h:25). -/
def Color.isNull (c : Color K) : Bool := c.r = 0 ∧ c.g = 0 ∧ c.b = 0 ∧ c.a = 0
/-- `null` (color.h:26). -/
def null : Color K := ofFloat 0 0 0 0

/-- `operator*` with an `int` or `float` (color.h:29-30): the products are `float`s. -/
def smul (s : K) (c : Color K) : Color K := ofFloat (s * c.r) (s * c.g) (s * c.b) (s * c.a)
/-- `operator*` with a `double` (color.h:29-30): the products are `double`s. -/
def smulDouble (s : K) (c : Color K) : Color K := ofDouble (s * c.r) (s * c.g) (s * c.b) (s * c.a)
/-- `operator+` (color.h:32). -/
def add (x y : Color K) : Color K := ofFloat (x.r + y.r) (x.g + y.g) (x.b + y.b) (x.a + y.a)
/-- `operator-` (color.h:33). -/
def sub (x y : Color K) : Color K := ofFloat (x.r - y.r) (x.g - y.g) (x.b - y.b) (x.a - y.a)
/-- `operator==` (color.h:35). -/
def eq (x y : Color K) : Bool := x.r = y.r ∧ x.g = y.g ∧ x.b = y.b ∧ x.a = y.a

/-- `operator<` (color.cpp:123-135). -/
def lt (x y : Color K) : Bool :=
  if x.r = y.r then
    if x.g = y.g then
      if x.b = y.b then x.a < y.a else x.b < y.b
    else x.g < y.g
  else x.r < y.r

/-- `clamp` (color.h:39-40). -/
def clampColor (c : Color K) (l u : K) : Color K :=
  ⟨Math.clamp c.r l u, Math.clamp c.g l u, Math.clamp c.b l u, Math.clamp c.a l u⟩

/-- `color_from_hsv` after line 65, with `h` the hue divided by 60 (color.cpp:66-84). -/
def hsvSector (h s v : K) : Color K :=
  let fract := h - (⌊h⌋ : K)
  let p := v * (1 - s)
  let q := v * (1 - s * fract)
  let t := v * (1 - s * (1 - fract))
  if 0 ≤ h ∧ h < 1 then ofFloat v t p
  else if 1 ≤ h ∧ h < 2 then ofFloat q v p
  else if 2 ≤ h ∧ h < 3 then ofFloat p v t
  else if 3 ≤ h ∧ h < 4 then ofFloat p q v
  else if 4 ≤ h ∧ h < 5 then ofFloat t p v
  else if 5 ≤ h ∧ h < 6 then ofFloat v p q
  else ofDouble 0 0 0

/-- `color_from_hsv` (color.cpp:63-84). -/
def fromHsv (h s v : K) : Color K :=
  match Math.fmod h 360 with
  | some m => hsvSector (m / 60) s v
  | none => hsvSector 0 s v

/-- `get_byte` of a `uint32` (math.h:125). -/
def getByte (x : Nat) (start : Nat) : Nat := (x >>> start) &&& 255

/-- `color_from_hex_rgb` (color.cpp:97-101). -/
def fromHexRgb (x : Nat) : Color K :=
  ofFloat (1 / 255 * (getByte x 16 : K)) (1 / 255 * (getByte x 8 : K)) (1 / 255 * (getByte x 0 : K))

/-- `color_from_hex_rgba` (color.cpp:103-107). -/
def fromHexRgba (x : Nat) : Color K :=
  ofFloat (1 / 255 * (getByte x 24 : K)) (1 / 255 * (getByte x 16 : K)) (1 / 255 * (getByte x 8 : K))
    (1 / 255 * (getByte x 0 : K))

/-- `float_to_byte` as an unsigned number (math.h:121). -/
def toByte (v : K) : Nat := (Math.floatToByte v).toNat

/-- `hex_rgb_from_color` (color.cpp:109-112). -/
def hexRgb (c : Color K) : Nat := toByte c.r <<< 16 ||| toByte c.g <<< 8 ||| toByte c.b

/-- `hex_rgba_from_color` (color.cpp:114-117). -/
def hexRgba (c : Color K) : Nat := toByte c.r <<< 24 ||| toByte c.g <<< 16 ||| toByte c.b <<< 8 ||| toByte c.a

end

/-- `perceived_brightness` (color.cpp:137-141). -/
noncomputable def perceivedBrightness (c : Color ℝ) : ℝ :=
  Real.sqrt (299 / 1000 * c.r * c.r + 587 / 1000 * c.g * c.g + 114 / 1000 * c.b * c.b)

/-- `standard_hue` (color.cpp:88). -/
def standardHue : List ℕ := [0, 120, 240, 45, 195, 310, 20, 75, 165, 215, 275, 330]

/-- `hue` in `make_unique_color` (color.cpp:89). -/
def uniqueHue (idx : ℕ) : ℕ := standardHue.getD (idx % 12) 0

/-- `sat` in `make_unique_color` (color.cpp:90): the quotient of the integers is an integer. -/
noncomputable def uniqueSat (idx : ℕ) : ℝ := 1 / (1 + ((idx / 12 : ℕ) : ℝ))

/-- `make_unique_color` (color.cpp:86-95). -/
noncomputable def makeUnique (idx : ℕ) (brightness : ℝ) : Color ℝ :=
  let pbr := perceivedBrightness (fromHsv (uniqueHue idx : ℝ) (uniqueSat idx) 1)
  let val := Math.clamp (brightness / pbr) brightness 1
  fromHsv (uniqueHue idx : ℝ) (uniqueSat idx) val

end Col
end Xo
