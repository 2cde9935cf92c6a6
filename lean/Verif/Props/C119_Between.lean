import Verif.Model.LabelTable
import Verif.Props.C08_Storage
import Mathlib.Algebra.Order.Floor.Ring
import Mathlib.Tactic.Linarith
import Mathlib.Tactic.Ring
import Mathlib.Data.Rat.Floor
import Mathlib.Tactic.IntervalCases
import Mathlib.Tactic.NormNum

/-!
C119: values between the frames of a storage.
-/
namespace Xo.TabL
open Xo
variable {K L : Type} [Field K] [LinearOrder K] [IsStrictOrderedRing K] [FloorRing K] [DecidableEq L]

theorem floor_at (i : Nat) (w : K) (hw : 0 ≤ w) (hw1 : w < 1) : ⌊(i : K) + w⌋ = (i : ℤ) := by
  rw [Int.floor_eq_iff]; push_cast; constructor <;> linarith

/-- **C119, values (partial).** For a channel of the storage, and a place from the first frame up to, not including, the
last one: the value is on the line between the two frames. Missing: the last frame and other channels, where it
fails. -/
theorem C119_value_partial (s : Storage K L) (m : Xo.Spec.Matrix K) (h : Storage.Rel s m) (c : Nat) (hc : c < m.cols)
    (i : Nat) (hi : i + 1 < m.rows) (hb : i < 2 ^ 64) (w : K) (hw : 0 ≤ w) (hw1 : w < 1) :
    between s (i + w) c = .ok (m.cell i c + w * (m.cell (i + 1) c - m.cell i c)) := by
  obtain ⟨h1, h2, h3⟩ := h
  have a := Vec.get_ok (h3.2 i c (by omega) hc)
  have b := Vec.get_ok (h3.2 (i + 1) c hi hc)
  unfold between
  rw [floor_at i w hw hw1, if_neg (by omega), Int.toNat_natCast, h1, if_pos hi, h2]
  simp only
  rw [a, show i * m.cols + c + m.cols = (i + 1) * m.cols + c by ring, show ∀ (y : K) (g : K → Res K), (Res.ok y).bind g = g y from fun _ _ => rfl, b]
  simp only [Res.bind, Int.cast_natCast, add_sub_cancel_left]
  congr 1
  ring

/-- **C119, at and between frames.** At a frame it is the value of the frame; between frames it is between their values; and
towards the next frame it comes as close as wanted to the value there. -/
theorem C119_line (a b w : K) (hw : 0 ≤ w) (hw1 : w < 1) :
    a + 0 * (b - a) = a ∧ min a b ≤ a + w * (b - a) ∧ a + w * (b - a) ≤ max a b ∧ |b - (a + w * (b - a))| = (1 - w) * |b - a| := by
  refine ⟨by ring, ?_, ?_, ?_⟩
  · rcases le_total a b with h | h
    · rw [min_eq_left h]; nlinarith
    · rw [min_eq_right h]; nlinarith
  · rcases le_total a b with h | h
    · rw [max_eq_right h]; nlinarith
    · rw [max_eq_left h]; nlinarith
  · rw [show b - (a + w * (b - a)) = (1 - w) * (b - a) by ring, abs_mul, abs_of_pos (by linarith)]

/-- **C119 is violated for the last frame.** It is refused, also in a storage with only one frame, although its value is
known. -/
theorem C119_last_frame_violated (s : Storage K L) (n : Nat) (h : s.frames = n + 1) (hb : n < 2 ^ 64) (c : Nat) :
    between s (n : K) c = .err := by
  have := floor_at (K := K) n 0 le_rfl (by norm_num)
  rw [add_zero] at this
  unfold between
  rw [this, if_neg (by omega), Int.toNat_natCast, h, if_neg (by omega)]

/-- **C119, outside.** Behind the last frame there is an error; before the first frame the behaviour is undefined. -/
theorem C119_outside (s : Storage K L) (x : K) (c : Nat) :
    (x < 0 → between s x c = .ub) ∧ (x < 2 ^ 64 → (s.frames : K) ≤ x → between s x c = .err) := by
  constructor
  · intro h
    unfold between
    rw [if_pos (Or.inl (Int.floor_lt.2 (by simpa using h)))]
  · intro h1 h2
    have hf : (s.frames : ℤ) ≤ ⌊x⌋ := Int.le_floor.2 (by simpa using h2)
    have hg : ⌊x⌋ < 2 ^ 64 := Int.floor_lt.2 (lt_of_lt_of_eq h1 (by norm_num))
    unfold between
    rw [if_neg (by omega), if_neg (by omega)]

/-- **C119 is violated for channels that are not there.** The first channel behind the last one gives, without an error, the
values of channel 0 one frame later. -/
theorem C119_channel_violated (s : Storage K L) (m : Xo.Spec.Matrix K) (h : Storage.Rel s m) (hc : 0 < m.cols)
    (i : Nat) (hi : i + 2 < m.rows) (hb : i < 2 ^ 64) (w : K) (hw : 0 ≤ w) (hw1 : w < 1) :
    between s (i + w) m.cols = .ok (m.cell (i + 1) 0 + w * (m.cell (i + 2) 0 - m.cell (i + 1) 0)) := by
  obtain ⟨h1, h2, h3⟩ := h
  have a := Vec.get_ok (h3.2 (i + 1) 0 (by omega) hc)
  have b := Vec.get_ok (h3.2 (i + 2) 0 hi hc)
  unfold between
  rw [floor_at i w hw hw1, if_neg (by omega), Int.toNat_natCast, h1, if_pos (by omega), h2]
  simp only
  rw [show i * m.cols + m.cols = (i + 1) * m.cols + 0 by ring, a,
    show (i + 1) * m.cols + 0 + m.cols = (i + 2) * m.cols + 0 by ring, show ∀ (y : K) (g : K → Res K), (Res.ok y).bind g = g y from fun _ _ => rfl, b]
  simp only [Res.bind, Int.cast_natCast, add_sub_cancel_left]
  congr 1
  ring

/-- Non-vacuity. -/
example : between (⟨3, ⟨["a", "b"], fun _ => none⟩, [0, 10, 2, 20, 6, 40]⟩ : Storage Rat String) (3 / 2) 1 = .ok 30 := by
  have h : Storage.Rel (⟨3, ⟨["a", "b"], fun _ => none⟩, [0, 10, 2, 20, 6, 40]⟩ : Storage Rat String)
      ⟨3, 2, fun r c => ([0, 10, 2, 20, 6, 40] : List Rat).getD (r * 2 + c) 0⟩ := by
    refine ⟨rfl, rfl, rfl, ?_⟩
    intro r c hr hc
    simp only at hr hc ⊢
    interval_cases r <;> interval_cases c <;> rfl
  have := C119_value_partial _ _ h 1 (by decide) 1 (by decide) (by decide) (1 / 2) (by norm_num) (by norm_num)
  rw [show ((3 : Rat) / 2) = ((1 : Nat) : Rat) + 1 / 2 by norm_num, this]
  norm_num

end Xo.TabL
