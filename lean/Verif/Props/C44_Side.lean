import Verif.Model.Side

/-!
C44: side suffixes of names.
-/
namespace Xo

namespace Spec

/-- A name is a base followed by `_l` or `_r`, or carries no side: then it ends with neither. -/
def HasSide (s : Str) (side : Side) (base : Str) : Prop :=
  match side with
  | .left => s = base ++ ['_', 'l']
  | .right => s = base ++ ['_', 'r']
  | .none => s = base ∧ (∀ b, s ≠ b ++ ['_', 'l']) ∧ (∀ b, s ≠ b ++ ['_', 'r'])

end Spec

theorem endsWith_iff (s pat : Str) : strEndsWith s pat = true ↔ ∃ b, s = b ++ pat := by
  unfold strEndsWith
  simp only [Bool.and_eq_true, decide_eq_true_eq]
  constructor
  · rintro ⟨_, h2⟩
    exact ⟨s.take (s.length - pat.length), by
      have := (List.take_append_drop (s.length - pat.length) s).symm
      rw [h2] at this; exact this⟩
  · rintro ⟨b, rfl⟩; simp

theorem ends_l_append (b : Str) : strEndsWith (b ++ ['_', 'l']) "_l".toList = true := (endsWith_iff _ _).2 ⟨b, rfl⟩

theorem ends_r_append (b : Str) : strEndsWith (b ++ ['_', 'r']) "_r".toList = true := (endsWith_iff _ _).2 ⟨b, rfl⟩

theorem not_ends_l_append (b : Str) : strEndsWith (b ++ ['_', 'r']) "_l".toList = false := by
  cases h : strEndsWith (b ++ ['_', 'r']) "_l".toList with
  | false => rfl
  | true =>
    obtain ⟨b', hb⟩ := (endsWith_iff _ _).1 h
    have := congrArg List.getLast? hb
    simp at this

theorem not_ends_r_append (b : Str) : strEndsWith (b ++ ['_', 'l']) "_r".toList = false := by
  cases h : strEndsWith (b ++ ['_', 'l']) "_r".toList with
  | false => rfl
  | true =>
    obtain ⟨b', hb⟩ := (endsWith_iff _ _).1 h
    have := congrArg List.getLast? hb
    simp at this

/-- Every name has exactly one side and base, and `str_get_side` reads the side. -/
theorem C44_get_side (s : Str) (side : Side) : strGetSide s = side ↔ ∃ base, Spec.HasSide s side base := by
  unfold strGetSide
  by_cases hl : ∃ b, s = b ++ ['_', 'l']
  · obtain ⟨b, rfl⟩ := hl
    rw [if_pos (ends_l_append b)]
    constructor
    · rintro rfl; exact ⟨b, rfl⟩
    · rintro ⟨b', h⟩
      cases side with
      | left => rfl
      | right =>
        have := congrArg List.getLast? (show b ++ ['_', 'l'] = b' ++ ['_', 'r'] from h)
        simp at this
      | none => exact absurd rfl (h.2.1 b)
  · rw [if_neg (fun h => hl ((endsWith_iff s "_l".toList).1 h))]
    by_cases hr : ∃ b, s = b ++ ['_', 'r']
    · obtain ⟨b, rfl⟩ := hr
      rw [if_pos (ends_r_append b)]
      constructor
      · rintro rfl; exact ⟨b, rfl⟩
      · rintro ⟨b', h⟩
        cases side with
        | left => exact absurd ⟨b', h⟩ hl
        | right => rfl
        | none => exact absurd rfl (h.2.2 b)
    · rw [if_neg (fun h => hr ((endsWith_iff s "_r".toList).1 h))]
      constructor
      · rintro rfl; exact ⟨s, rfl, fun b e => hl ⟨b, e⟩, fun b e => hr ⟨b, e⟩⟩
      · rintro ⟨b', h⟩
        cases side with
        | left => exact absurd ⟨b', h⟩ hl
        | right => exact absurd ⟨b', h⟩ hr
        | none => rfl

theorem get_of_hasSide {s : Str} {side : Side} {base : Str} (h : Spec.HasSide s side base) : strGetSide s = side :=
  (C44_get_side s side).2 ⟨base, h⟩

theorem eq_of_hasSide {s : Str} {side : Side} {base : Str} (h : Spec.HasSide s side base) :
    s = base ++ side.postfixStr := by
  cases side with
  | left => exact h
  | right => exact h
  | none => rw [h.1]; simp [Side.postfixStr]

/-- The side and base of a name are unique. -/
theorem C44_side_unique {s : Str} {x y : Side} {b c : Str} (h1 : Spec.HasSide s x b) (h2 : Spec.HasSide s y c) :
    x = y ∧ b = c := by
  have hx := get_of_hasSide h1
  have hy := get_of_hasSide h2
  have e : x = y := hx.symm.trans hy
  subst e
  refine ⟨rfl, ?_⟩
  have e1 := eq_of_hasSide h1
  rw [eq_of_hasSide h2] at e1
  exact (List.append_cancel_right e1).symm

theorem leftStr_minus2 (b : Str) (x y : Char) : leftStr (b ++ [x, y]) (-2) = .ok b := by
  have h1 : (max 0 (((b ++ [x, y]).length : Int) + -2)).toNat = b.length := by
    simp only [List.length_append, List.length_cons, List.length_nil]
    omega
  unfold leftStr
  rw [if_neg (by omega), h1]
  simp [substr]

/-- `str_remove_side` gives the base. -/
theorem C44_remove_side (s : Str) (side : Side) (base : Str) (h : Spec.HasSide s side base) :
    strRemoveSide s = .ok base := by
  unfold strRemoveSide
  rw [get_of_hasSide h]
  cases side with
  | left => rw [if_pos (by simp), show s = base ++ ['_', 'l'] from h, leftStr_minus2]
  | right => rw [if_pos (by simp), show s = base ++ ['_', 'r'] from h, leftStr_minus2]
  | none => rw [if_neg (by simp), h.1]

theorem setBack_append2 (b : Str) (x y z : Char) : setBack (b ++ [x, y]) z = .ok (b ++ [x, z]) := by
  have e : b ++ [x, y] = (b ++ [x]) ++ [y] := by simp
  unfold setBack
  rw [if_neg (by simp), e, List.dropLast_concat]
  simp

/-- `str_mirrored_side` keeps the base and swaps the side. -/
theorem C44_mirror (s : Str) (side : Side) (base : Str) (h : Spec.HasSide s side base) :
    ∃ s', strMirroredSide s = .ok s' ∧ Spec.HasSide s' side.mirrored base := by
  unfold strMirroredSide
  simp only [get_of_hasSide h]
  cases side with
  | left =>
    refine ⟨base ++ ['_', 'r'], ?_, rfl⟩
    rw [show s = base ++ ['_', 'l'] from h]
    simp [setBack_append2]
  | right =>
    refine ⟨base ++ ['_', 'l'], ?_, rfl⟩
    rw [show s = base ++ ['_', 'r'] from h]
    simp [setBack_append2]
  | none => exact ⟨s, by simp, h⟩

/-- Mirroring twice gives the name back, for every string; it never fails. -/
theorem C44_mirror_twice (s : Str) : (strMirroredSide s).bind strMirroredSide = .ok s := by
  obtain ⟨base, hs⟩ := (C44_get_side s (strGetSide s)).1 rfl
  obtain ⟨s1, h1, hs1⟩ := C44_mirror s _ base hs
  obtain ⟨s2, h2, hs2⟩ := C44_mirror s1 _ base hs1
  rw [h1]
  show strMirroredSide s1 = .ok s
  rw [h2]
  have hmm : (strGetSide s).mirrored.mirrored = strGetSide s := by cases strGetSide s <;> rfl
  rw [hmm] at hs2
  rw [eq_of_hasSide hs2, ← eq_of_hasSide hs]

/-- The version that changes the string in place does the same. -/
theorem C44_mirror_in_place (s : Str) : strMirrorSide s = strMirroredSide s := by
  obtain ⟨base, hs⟩ := (C44_get_side s (strGetSide s)).1 rfl
  unfold strMirroredSide strMirrorSide
  cases hg : strGetSide s with
  | left =>
    rw [hg] at hs
    have e : s = base ++ ['_', 'l'] := hs
    subst e
    simp only [not_ends_r_append, ends_l_append]
    simp
  | right =>
    rw [hg] at hs
    have e : s = base ++ ['_', 'r'] := hs
    subst e
    simp only [ends_r_append]
    simp
  | none =>
    rw [hg] at hs
    have h1 : strEndsWith s "_r".toList = false := by
      cases h : strEndsWith s "_r".toList with
      | false => rfl
      | true => obtain ⟨b, hb⟩ := (endsWith_iff _ _).1 h; exact absurd hb (hs.2.2 b)
    have h2 : strEndsWith s "_l".toList = false := by
      cases h : strEndsWith s "_l".toList with
      | false => rfl
      | true => obtain ⟨b, hb⟩ := (endsWith_iff _ _).1 h; exact absurd hb (hs.2.1 b)
    simp only [h1, h2]
    simp

/-- Setting left or right keeps the base and gives that side. Setting none gives the base. -/
theorem C44_set_side (s : Str) (side : Side) (base : Str) (h : Spec.HasSide s side base) (new : Side) :
    strSetSide s new = .ok (base ++ new.postfixStr) := by
  unfold strSetSide
  simp only [get_of_hasSide h]
  split
  · next e => subst e; rw [← eq_of_hasSide h]
  · next e =>
    cases side with
    | none => rw [if_pos rfl, h.1]
    | left =>
      have hs : s = base ++ ['_', 'l'] := h
      rw [if_neg (by simp)]
      cases new with
      | left => exact absurd rfl e
      | none => rw [if_pos rfl, C44_remove_side s .left base h]; simp [Side.postfixStr]
      | right => rw [if_neg (by simp), hs]; simp [setBack_append2, Side.postfixStr]
    | right =>
      have hs : s = base ++ ['_', 'r'] := h
      rw [if_neg (by simp)]
      cases new with
      | right => exact absurd rfl e
      | none => rw [if_pos rfl, C44_remove_side s .right base h]; simp [Side.postfixStr]
      | left => rw [if_neg (by simp), hs]; simp [setBack_append2, Side.postfixStr]

/-- **C44, setting a side (partial).** The side set is the side read, for left and right, and for none if the base
carries no side of its own. Missing: none on a name such as `a_l_r`. -/
theorem C44_set_then_get_partial (s : Str) (side : Side) (base : Str) (h : Spec.HasSide s side base) (new : Side)
    (hn : new = .none → strGetSide base = .none) :
    ∃ s', strSetSide s new = .ok s' ∧ strGetSide s' = new := by
  refine ⟨_, C44_set_side s side base h new, ?_⟩
  cases new with
  | left => exact get_of_hasSide (base := base) rfl
  | right => exact get_of_hasSide (base := base) rfl
  | none => simpa [Side.postfixStr] using hn rfl

/-- **C44 is violated for names with two suffixes.** Setting side none on `…_l_r` leaves a name with a side. -/
theorem C44_set_none_violated (b : Str) :
    ∃ s', strSetSide (b ++ "_l_r".toList) .none = .ok s' ∧ strGetSide s' = .left := by
  have h : Spec.HasSide (b ++ "_l_r".toList) .right (b ++ ['_', 'l']) := by
    show b ++ "_l_r".toList = _; simp
  refine ⟨_, C44_set_side _ _ _ h .none, ?_⟩
  have : strGetSide (b ++ ['_', 'l']) = .left := get_of_hasSide (base := b) rfl
  simpa [Side.postfixStr] using this

/-- `str_append_before_side` puts the text between base and side. -/
theorem C44_append_before_side (s pf : Str) (side : Side) (base : Str) (h : Spec.HasSide s side base) :
    strAppendBeforeSide s pf = .ok (base ++ pf ++ side.postfixStr) := by
  unfold strAppendBeforeSide
  rw [C44_remove_side s side base h, get_of_hasSide h]
  rfl

/-- **C44, appending keeps the side (partial).** True for every name with a side, and for a name without one if the
appended text does not make one. -/
theorem C44_append_keeps_side_partial (s pf : Str) (h : strGetSide s = .none → strGetSide (s ++ pf) = .none) :
    ∃ s', strAppendBeforeSide s pf = .ok s' ∧ strGetSide s' = strGetSide s := by
  obtain ⟨base, hs⟩ := (C44_get_side s (strGetSide s)).1 rfl
  refine ⟨_, C44_append_before_side s pf _ base hs, ?_⟩
  cases hg : strGetSide s with
  | left => exact get_of_hasSide (base := base ++ pf) rfl
  | right => exact get_of_hasSide (base := base ++ pf) rfl
  | none =>
    rw [hg] at hs
    have := h hg
    rw [hs.1] at this
    simpa [Side.postfixStr] using this

/-- A text that ends with a side makes a side on a name without one. -/
theorem C44_append_keeps_side_violated (s pf : Str) (h : strGetSide s = .none) :
    ∃ s', strAppendBeforeSide s (pf ++ ['_', 'l']) = .ok s' ∧ strGetSide s' = .left := by
  obtain ⟨base, hs⟩ := (C44_get_side s .none).1 h
  refine ⟨_, C44_append_before_side s _ .none base hs, ?_⟩
  have : strGetSide (base ++ (pf ++ ['_', 'l'])) = .left := get_of_hasSide (base := base ++ pf) (by simp [Spec.HasSide])
  simpa [Side.postfixStr] using this

/-- Non-vacuity. -/
example : Spec.HasSide "femur_l".toList .left "femur".toList := rfl
example : strGetSide "pelvis".toList = .none ∧ strGetSide "toe_r".toList = .right := by decide
example : strAppendBeforeSide "femur_l".toList "_2".toList = .ok "femur_2_l".toList := by decide
example : strSetSide "a_l_r".toList .none = .ok "a_l".toList := by decide

end Xo
