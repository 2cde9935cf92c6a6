import Verif.Model.IeeeColor
import Verif.Model.PnConv
import Verif.Model.StrMore

/-! Reading a colour from a property node: `from_prop_node( pn, color )` (xo/utility/color.cpp:13-61), with components of type
`float`. The flags that reading sets in the nodes are left out (C18). -/

namespace Xo.ColNode
open Num (Fl Fmt binary32)
open Ieee

/-- A number whose conversion sets `ERANGE`: too large, or so small that digits are lost. -/
def outOfRange (f : Fmt) (x : Rat) : Bool :=
  match Num.rnd f x with
  | none => true
  | some r => decide (r ≠ x) && decide (x < (2 : Rat) ^ (f.emin + f.prec - 1))

/-- `std::stof`; `none`: an exception, as nothing was read or the number is out of range. -/
def stof (s : Str) : Option Fl :=
  let t := (Num.splitSign ((cstr s).dropWhile isSpaceC)).2
  match Num.strtod binary32 (cstr s) with
  | none => none
  | some (.fin n m) => match Num.readMag t with
    | some x => if outOfRange binary32 x then none else some (.fin n m)
    | none => some (.fin n m)
  | some (.inf n) => if (t.take 3).map Num.lower = "inf".toList then some (.inf n) else none
  | some (.nan n) => some (.nan n)

/-- The hexadecimal digits that `strtoul` reads: an optional `0x` is skipped if a digit follows. -/
def hexDigits : Str → Str
  | '0' :: x :: d :: t =>
    if Num.lower x = 'x' ∧ Num.isHexC d then (d :: t).takeWhile Num.isHexC else ('0' :: x :: d :: t).takeWhile Num.isHexC
  | s => s.takeWhile Num.isHexC

/-- `std::stoul( s, 0, 16 )` with 64 bits; `none`: an exception. -/
def stoul16 (s : Str) : Option Nat :=
  let p := Num.splitSign ((cstr s).dropWhile isSpaceC)
  let ds := hexDigits p.2
  if ds = [] then none
  else
    let v := Num.digsVal 16 ds
    if 2 ^ 64 ≤ v then none else if p.1 then some ((2 ^ 64 - v) % 2 ^ 64) else some v

/-- `std::floor`. -/
def floorFl : Fl → Fl
  | .fin s m => let k := ⌊val (.fin s m)⌋; .fin (decide (k < 0) || (s && decide (k = 0))) |(k : Rat)|
  | v => v

/-- `color_from_hsv` (color.cpp:63-84). The last line has three `double` and makes the alpha component zero (color.h:12). -/
def fromHsv (H S V : Fl) : Rgba :=
  let f := binary32
  let one := ofNat 1
  let H := div f (fmod H (ofNat 360)) (ofNat 60)
  let fract := sub f H (floorFl H)
  let P := mul f V (sub f one S)
  let Q := mul f V (sub f one (mul f S fract))
  let T := mul f V (sub f one (mul f S (sub f one fract)))
  if le (ofNat 0) H && lt H (ofNat 1) then ⟨V, T, P, one⟩
  else if le (ofNat 1) H && lt H (ofNat 2) then ⟨Q, V, P, one⟩
  else if le (ofNat 2) H && lt H (ofNat 3) then ⟨P, V, T, one⟩
  else if le (ofNat 3) H && lt H (ofNat 4) then ⟨P, Q, V, one⟩
  else if le (ofNat 4) H && lt H (ofNat 5) then ⟨T, P, V, one⟩
  else if le (ofNat 5) H && lt H (ofNat 6) then ⟨V, P, Q, one⟩
  else ⟨ofNat 0, ofNat 0, ofNat 0, ofNat 0⟩

/-- The separators (color.cpp:21). -/
def seps : Str := [',', ';', ' ', '(', ')']

/-- A value in small letters (color.cpp:18-46); `none`: false or an exception. -/
def ofText (str : Str) : Option Rgba :=
  let hasRgb := strBeginsWith str "rgb".toList
  let hasHsv := strBeginsWith str "hsv".toList
  if hasRgb || hasHsv then
    match splitStr str seps with
    | [_, a, b, c] =>
      match stof a, stof b, stof c with
      | some x, some y, some z =>
        if hasRgb then some ⟨div binary32 x (ofNat 255), div binary32 y (ofNat 255), div binary32 z (ofNat 255), ofNat 1⟩
        else some (fromHsv x (div binary32 y (ofNat 100)) (div binary32 z (ofNat 100)))
      | _, _, _ => none
    | _ => none
  else
    let has0x := strBeginsWith str "0x".toList
    let numDigits := if has0x then str.length - 2 else str.length
    match stoul16 str with
    | none => none
    | some v => if numDigits = 8 then some (fromHexRgba binary32 (v % 2 ^ 32)) else some (fromHexRgb binary32 (v % 2 ^ 32))

/-- The conversion of a `float`. -/
def flC : Conv.Conv Fl := (Conv.flT binary32).conv

/-- `pn.get< float >( key, pn.get< float >( idx ) )` (color.cpp:52-56): the default is read first. -/
def comp (n : PropNode) (k : Str) (i : Nat) : Res Fl := (Conv.getIdx flC n i).bind fun d => Conv.getDef flC n k d

/-- An exception ends the function with the colour as it is so far (color.cpp:60). -/
def step (r : Res Fl) (c : Rgba) (next : Fl → Res (Bool × Rgba)) : Res (Bool × Rgba) :=
  match r with
  | .ok v => next v
  | .err => .ok (false, c)
  | .ub => .ub

/-- `from_prop_node( pn, c )` (color.cpp:13-61): the result and the colour afterwards. -/
def fromNode (n : PropNode) (c : Rgba) : Res (Bool × Rgba) :=
  if n.hasValue then
    (Text.toLower n.value).map fun str =>
      match ofText str with
      | some d => (true, d)
      | none => (false, c)
  else if n.hasKey ['h'] || n.hasKey ['s'] || n.hasKey ['v'] then
    step (Conv.getDef flC n ['h'] (ofNat 0)) c fun h => step (Conv.getDef flC n ['s'] (ofNat 1)) c fun s =>
      step (Conv.getDef flC n ['v'] (ofNat 1)) c fun v => .ok (true, fromHsv h s v)
  else if 3 ≤ n.kids.length then
    step (comp n ['r'] 0) c fun r =>
      let c := { c with r := r }
      step (comp n ['g'] 1) c fun g =>
        let c := { c with g := g }
        step (comp n ['b'] 2) c fun b =>
          let c := { c with b := b }
          if 4 ≤ n.kids.length then step (comp n ['a'] 3) c fun a => .ok (true, { c with a := a })
          else .ok (true, c)
  else .ok (false, c)

end Xo.ColNode
