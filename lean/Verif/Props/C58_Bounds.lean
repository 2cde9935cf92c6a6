import Verif.Model.Bounds
import Verif.Lemmas.Num
import Verif.Props.C29_IntText
import Verif.Props.C49_Wrap

/-!
C58: bounds are intervals.
-/
namespace Xo
open Bounds
variable {K : Type} [Field K] [LinearOrder K]

/-- **C58.** `is_within`, a zero violation and a successful check all mean the same: the value is in the interval. -/
theorem C58_within [IsStrictOrderedRing K] (b : Bounds K) (v : K) :
    (b.isWithin v = true ↔ b.lower ≤ v ∧ v ≤ b.upper) ∧ (b.violation v = 0 ↔ b.lower ≤ v ∧ v ≤ b.upper) ∧
    ((b.check v).1 = true ↔ b.lower ≤ v ∧ v ≤ b.upper) ∧ (b.check v).2 = b.violation v := by
  refine ⟨by simp [isWithin], ?_, ?_, ?_⟩
  · unfold violation
    split_ifs with h1 h2
    · constructor
      · intro h; linarith
      · intro h; linarith [h.1]
    · constructor
      · intro h; linarith
      · intro h; linarith [h.2]
    · exact ⟨fun _ => ⟨not_lt.1 h1, not_lt.1 h2⟩, fun _ => rfl⟩
  · unfold check
    split_ifs with h1 h2
    · simp; intro h; exact absurd h1 (not_lt.2 h)
    · simp; intro _; exact h2
    · simp; exact ⟨not_lt.1 h1, not_lt.1 h2⟩
  · unfold check violation
    split_ifs <;> rfl

/-- **C58.** The violation is the signed distance to the nearest point of the interval, which is what `clamp` returns. -/
theorem C58_clamp [FloorRing K] [IsStrictOrderedRing K] (b : Bounds K) (h : b.lower ≤ b.upper) (v : K) :
    b.lower ≤ b.clamp v ∧ b.clamp v ≤ b.upper ∧ b.violation v = v - b.clamp v ∧
    (∀ x, b.lower ≤ x → x ≤ b.upper → |b.clamp v - v| ≤ |x - v|) ∧ b.clamp (b.clamp v) = b.clamp v := by
  obtain ⟨h1, h2, h3, h4⟩ := C49_clamp v b.lower b.upper h
  refine ⟨h1, h2, ?_, h4, (C49_clamp _ b.lower b.upper h).2.2.1 h1 h2⟩
  unfold violation Bounds.clamp Math.clamp
  split_ifs <;> simp

/-- **C58.** Extending by a value gives the smallest interval that contains the interval and the value. -/
theorem C58_extend (b : Bounds K) (v : K) :
    (b.extend v).lower ≤ v ∧ v ≤ (b.extend v).upper ∧ (b.extend v).lower ≤ b.lower ∧ b.upper ≤ (b.extend v).upper ∧
    ∀ c : Bounds K, c.lower ≤ v → v ≤ c.upper → c.lower ≤ b.lower → b.upper ≤ c.upper →
      c.lower ≤ (b.extend v).lower ∧ (b.extend v).upper ≤ c.upper := by
  unfold extend min2 max2
  refine ⟨?_, ?_, ?_, ?_, ?_⟩
  · simp only; split_ifs with h; exacts [le_of_lt h, le_refl _]
  · simp only; split_ifs with h; exacts [le_refl _, not_lt.1 h]
  · simp only; split_ifs with h; exacts [le_refl _, not_lt.1 h]
  · simp only; split_ifs with h; exacts [le_of_lt h, le_refl _]
  · intro c h1 h2 h3 h4
    simp only
    constructor
    · split_ifs <;> assumption
    · split_ifs <;> assumption

/-- **C58.** Extending by bounds gives the smallest interval that contains both. -/
theorem C58_extend_by (b c : Bounds K) :
    (b.extendBy c).lower ≤ b.lower ∧ (b.extendBy c).lower ≤ c.lower ∧ b.upper ≤ (b.extendBy c).upper ∧
    c.upper ≤ (b.extendBy c).upper ∧
    ∀ d : Bounds K, d.lower ≤ b.lower → d.lower ≤ c.lower → b.upper ≤ d.upper → c.upper ≤ d.upper →
      d.lower ≤ (b.extendBy c).lower ∧ (b.extendBy c).upper ≤ d.upper := by
  unfold extendBy min2 max2
  refine ⟨?_, ?_, ?_, ?_, ?_⟩
  · simp only; split_ifs with h; exacts [le_refl _, not_lt.1 h]
  · simp only; split_ifs with h; exacts [le_of_lt h, le_refl _]
  · simp only; split_ifs with h; exacts [le_of_lt h, le_refl _]
  · simp only; split_ifs with h; exacts [le_refl _, not_lt.1 h]
  · intro d h1 h2 h3 h4
    simp only
    constructor
    · split_ifs <;> assumption
    · split_ifs <;> assumption

/-- **C58.** After any sequence of values, extending gives the hull of the initial interval and the values. -/
theorem C58_extend_all (vs : List K) : ∀ b : Bounds K,
    (∀ v ∈ vs, (vs.foldl extend b).lower ≤ v ∧ v ≤ (vs.foldl extend b).upper) ∧
    (vs.foldl extend b).lower ≤ b.lower ∧ b.upper ≤ (vs.foldl extend b).upper ∧
    ((vs.foldl extend b).lower ∈ b.lower :: vs) ∧ ((vs.foldl extend b).upper ∈ b.upper :: vs) := by
  induction vs with
  | nil => intro b; simp
  | cons v vs ih =>
    intro b
    obtain ⟨h1, h2, h3, h4, h5⟩ := ih (b.extend v)
    obtain ⟨e1, e2, e3, e4, _⟩ := C58_extend b v
    rw [List.foldl_cons]
    refine ⟨?_, le_trans h2 e3, le_trans e4 h3, ?_, ?_⟩
    · intro w hw
      rcases List.mem_cons.1 hw with rfl | hw
      · exact ⟨le_trans h2 e1, le_trans e2 h3⟩
      · exact h1 w hw
    · rcases List.mem_cons.1 h4 with h | h
      · rw [h]; unfold extend min2; simp only; split_ifs <;> simp
      · simp [h]
    · rcases List.mem_cons.1 h5 with h | h
      · rw [h]; unfold extend max2; simp only; split_ifs <;> simp
      · simp [h]

/-- Negation is the mirror image; center and length describe the interval. -/
theorem C58_negate [IsStrictOrderedRing K] (b : Bounds K) (v : K) : (b.neg.isWithin v = b.isWithin (-v)) ∧
    b.neg.neg = b ∧ b.neg.length = b.length ∧ b.center - b.length / 2 = b.lower ∧ b.center + b.length / 2 = b.upper := by
  refine ⟨?_, by simp [neg], by simp [neg, Bounds.length]; ring, by unfold center Bounds.length; ring, by unfold center Bounds.length; ring⟩
  unfold isWithin neg
  rw [Bool.and_comm]
  congr 1
  · simp only [ge_iff_le, decide_eq_decide]; constructor <;> intro h <;> linarith
  · simp only [ge_iff_le, decide_eq_decide]; constructor <;> intro h <;> linarith

/-! ### Text -/

theorem intToStr_no_dot (v : Int) : '.' ∉ intToStr v := by
  have h : ∀ n, '.' ∉ natToStr n := fun n hm => by
    have := (natToStr_spec n).1 '.' hm
    revert this; decide
  unfold intToStr
  split
  · intro hm
    rcases List.mem_cons.1 hm with hm | hm
    · revert hm; decide
    · exact h _ hm
  · exact h _

theorem find_dots (a r : Str) (ha : '.' ∉ a) : ∀ i, findFrom "..".toList (a ++ "..".toList ++ r) i = some (i + a.length) := by
  induction a with
  | nil => intro i; simp [findFrom]
  | cons c cs ih =>
    intro i
    have hc : c ≠ '.' := fun e => ha (by simp [e])
    rw [List.cons_append, List.cons_append, findFrom, if_neg, ih (fun h => ha (by simp [h]))]
    · congr 1; simp; omega
    · simp [List.isPrefixOf, Ne.symm hc]

/-- **C58.** Integer bounds survive conversion to text and back. -/
theorem C58_text (b : Bounds Int) (hl : -2 ^ 31 ≤ b.lower ∧ b.lower < 2 ^ 31) (hu : -2 ^ 31 ≤ b.upper ∧ b.upper < 2 ^ 31) :
    fromStr b.toStr = some b := by
  have hlow : fromStrInt b.toStr = some b.lower := by
    have h1 := readInt_intToStr b.lower ("..".toList ++ intToStr b.upper) (by intro c hc; simp at hc; subst hc; decide)
    have h2 := C29_int b.lower hl
    unfold fromStrInt strtol at h2 ⊢
    unfold toStr
    rw [List.append_assoc, h1]
    rw [readInt_text] at h2
    exact h2
  unfold fromStr
  rw [hlow]
  simp only
  unfold strFind
  rw [if_neg (by omega), List.drop_zero]
  unfold toStr
  rw [find_dots _ _ (intToStr_no_dot _)]
  simp only [Nat.zero_add]
  have hd : (intToStr b.lower ++ "..".toList ++ intToStr b.upper).drop ((intToStr b.lower).length + 2) = intToStr b.upper := by
    rw [List.append_assoc, List.drop_append, List.drop_eq_nil_of_le (by omega)]
    simp
  rw [hd, C29_int _ hu]
  rfl

/-- **C58.** A single number stands for the interval of that number alone. -/
theorem C58_single (v : Int) (h : -2 ^ 31 ≤ v ∧ v < 2 ^ 31) : fromStr (intToStr v) = some ⟨v, v⟩ := by
  unfold fromStr
  rw [C29_int v h]
  simp only
  have hf : ∀ (s : Str), '.' ∉ s → ∀ i, findFrom "..".toList s i = none := by
    intro s
    induction s with
    | nil => intro _ i; simp [findFrom, List.isPrefixOf]
    | cons c cs ih =>
      intro hs i
      have hc : c ≠ '.' := fun e => hs (by simp [e])
      rw [findFrom, if_neg, ih (fun h => hs (by simp [h]))]
      simp [List.isPrefixOf, Ne.symm hc]
  unfold strFind
  rw [if_neg (by omega), List.drop_zero, hf _ (intToStr_no_dot v)]

/-- **C58.** A node with children `min` and `max`, in either order, gives these bounds. -/
theorem C58_prop_node (b : Bounds Int) (hl : -2 ^ 31 ≤ b.lower ∧ b.lower < 2 ^ 31) (hu : -2 ^ 31 ≤ b.upper ∧ b.upper < 2 ^ 31) :
    let mn := ("min".toList, PropNode.leaf (intToStr b.lower))
    let mx := ("max".toList, PropNode.leaf (intToStr b.upper))
    fromPropNode (.mk [] [mn, mx] false) = .ok (some b) ∧ fromPropNode (.mk [] [mx, mn] false) = .ok (some b) := by
  intro mn mx
  have h1 : getInt (PropNode.leaf (intToStr b.lower)) = .ok b.lower := by
    unfold getInt PropNode.leaf PropNode.value; simp only; rw [C29_int _ hl]; rfl
  have h2 : getInt (PropNode.leaf (intToStr b.upper)) = .ok b.upper := by
    unfold getInt PropNode.leaf PropNode.value; simp only; rw [C29_int _ hu]; rfl
  constructor
  · simp [fromPropNode, PropNode.value, PropNode.kids, PropNode.getChildIdx, Res.ofOptionUb, mn, mx, h1, h2, getAny,
      PropNode.tryGetChild, PropNode.findKid]
  · simp [fromPropNode, PropNode.value, PropNode.kids, PropNode.getChildIdx, Res.ofOptionUb, mn, mx, h1, h2, getAny,
      PropNode.tryGetChild, PropNode.findKid]

/-- Non-vacuity. -/
example : toStr ⟨-3, 12⟩ = "-3..12".toList ∧ fromStr "-3..12".toList = some ⟨-3, 12⟩ ∧ fromStr "x".toList = none := by
  decide +kernel
example : (⟨1, 3⟩ : Bounds ℚ).violation 5 = 2 ∧ ((⟨1, 3⟩ : Bounds ℚ).extend 5).upper = 5 := by
  constructor <;> norm_num [violation, extend, max2]

end Xo
