import Verif.Lemmas.Ieee

/-!
# C120: comparing, limiting and collecting floating-point values, with infinities, zeros with a sign and NaN

`num` (Spec/Ieee.lean) places every value but NaN in the rational numbers with two infinities.
-/
namespace Xo
namespace Ieee
open Num Spec

/-- **C120, order.** Of two numbers, infinite ones included, `min` returns the smaller, `max` the larger. -/
theorem C120_order {a b : Fl} (ha : ¬ IsNan a) (hb : ¬ IsNan b) :
    num (min2 a b) = min (num a) (num b) ∧ (min2 a b = a ∨ min2 a b = b) ∧
    num (max2 a b) = max (num a) (num b) ∧ (max2 a b = a ∨ max2 a b = b) := by
  unfold min2 max2
  by_cases h : lt a b = true
  · have := (lt_iff ha hb).1 h
    rw [if_pos h, if_pos h, min_eq_left this.le, max_eq_right this.le]
    exact ⟨rfl, .inl rfl, rfl, .inr rfl⟩
  · have := (lt_false ha hb).1 (Bool.not_eq_true _ ▸ h)
    rw [if_neg h, if_neg h, min_eq_right this, max_eq_left this]
    exact ⟨rfl, .inr rfl, rfl, .inl rfl⟩

/-- **C120, limits.** A limited number is between the limits, which may be infinite; a number between them is returned as it
is, and one outside becomes the limit it passed. -/
theorem C120_clamp {v lo hi : Fl} (hv : ¬ IsNan v) (hl : ¬ IsNan lo) (hh : ¬ IsNan hi) (h : num lo ≤ num hi) :
    num lo ≤ num (clamp v lo hi) ∧ num (clamp v lo hi) ≤ num hi ∧
    (num lo ≤ num v → num v ≤ num hi → clamp v lo hi = v) ∧
    (num v < num lo → clamp v lo hi = lo) ∧ (num hi < num v → clamp v lo hi = hi) := by
  unfold clamp
  by_cases h1 : lt v lo = true
  · have := (lt_iff hv hl).1 h1
    rw [if_pos h1]
    exact ⟨le_refl _, h, fun h' => absurd h' (not_le.2 this), fun _ => rfl, fun h' => absurd (h'.trans this) (not_lt.2 h)⟩
  · have h1' := (lt_false hv hl).1 (Bool.not_eq_true _ ▸ h1)
    rw [if_neg h1]
    by_cases h2 : lt hi v = true
    · have := (lt_iff hh hv).1 h2
      rw [if_pos h2]
      exact ⟨h, le_refl _, fun _ h' => absurd h' (not_le.2 this), fun h' => absurd h' (not_lt.2 h1'), fun _ => rfl⟩
    · have h2' := (lt_false hh hv).1 (Bool.not_eq_true _ ▸ h2)
      rw [if_neg h2]
      exact ⟨h1', h2', fun _ _ => rfl, fun h' => absurd h' (not_lt.2 h1'), fun h' => absurd h' (not_lt.2 h2')⟩

example : clamp (.inf false) (.fin true 1) (.fin false 2) = .fin false 2 := by decide +kernel
example : clamp (.fin true 0) (.fin false 0) (.fin false 2) = .fin true 0 := by decide +kernel

/-- **C120, limits, violated.** NaN passes any limits: the result is not between them. A limit that is NaN is ignored. -/
theorem C120_clamp_nan_violated (v lo hi : Fl) :
    (IsNan v → clamp v lo hi = v ∧ isBetween (clamp v lo hi) lo hi = false) ∧
    (IsNan lo → IsNan hi → clamp v lo hi = v) := by
  constructor
  · intro h
    have e : clamp v lo hi = v := by unfold clamp; rw [lt_nan_left h, lt_nan_right h]; rfl
    refine ⟨e, ?_⟩
    rw [e]; unfold isBetween; rw [le_nan_right h]; rfl
  · intro h h'
    unfold clamp; rw [lt_nan_right h, lt_nan_left h']; rfl

/-- **C120, order, violated.** With NaN, the results of `min` and `max` depend on the order of the arguments. -/
theorem C120_min_nan_violated {n a : Fl} (hn : IsNan n) (ha : ¬ IsNan a) :
    min2 n a = a ∧ min2 a n = n ∧ max2 n a = n ∧ max2 a n = a ∧ min2 n a ≠ min2 a n ∧ max2 n a ≠ max2 a n := by
  have e : min2 n a = a ∧ min2 a n = n ∧ max2 n a = n ∧ max2 a n = a := by
    unfold min2 max2
    rw [lt_nan_left hn, lt_nan_right hn]
    exact ⟨rfl, rfl, rfl, rfl⟩
  obtain ⟨e1, e2, e3, e4⟩ := e
  refine ⟨e1, e2, e3, e4, ?_, ?_⟩
  · rw [e1, e2]; intro h; rw [h] at ha; exact ha hn
  · rw [e3, e4]; intro h; rw [← h] at ha; exact ha hn

/-- **C120, running minimum.** `set_if_smaller` with one value after the other, from a number on: the result is one of the
values and not above any number among them; NaN is ignored. -/
theorem C120_running_min (vs : List Fl) (v : Fl) (hv : ¬ IsNan v) :
    ¬ IsNan (vs.foldl setIfSmaller v) ∧ vs.foldl setIfSmaller v ∈ v :: vs ∧
    ∀ x ∈ v :: vs, ¬ IsNan x → num (vs.foldl setIfSmaller v) ≤ num x := by
  induction vs generalizing v with
  | nil => exact ⟨hv, .head _, fun x hx _ => by rw [List.mem_singleton.1 hx]; exact le_refl _⟩
  | cons y ys ih =>
    rw [List.foldl_cons]
    by_cases hy : IsNan y
    · have e : setIfSmaller v y = v := by unfold setIfSmaller; rw [lt_nan_left hy]; rfl
      rw [e]
      obtain ⟨h1, h2, h3⟩ := ih v hv
      refine ⟨h1, ?_, fun x hx hn => ?_⟩
      · rcases List.mem_cons.1 h2 with h | h
        · rw [h]; exact .head _
        · exact .tail _ (.tail _ h)
      · rcases List.mem_cons.1 hx with h | h
        · exact h3 x (h ▸ .head _) hn
        · rcases List.mem_cons.1 h with h | h
          · exact absurd (h ▸ hy) hn
          · exact h3 x (.tail _ h) hn
    · rw [show setIfSmaller v y = if lt y v then y else v from rfl]
      by_cases hl : lt y v = true
      · rw [if_pos hl]
        have hlt := (lt_iff hy hv).1 hl
        obtain ⟨h1, h2, h3⟩ := ih y hy
        refine ⟨h1, .tail _ h2, fun x hx hn => ?_⟩
        rcases List.mem_cons.1 hx with h | h
        · rw [h]; exact (h3 y (.head _) hy).trans hlt.le
        · exact h3 x h hn
      · rw [if_neg hl]
        have hge := (lt_false hy hv).1 (Bool.not_eq_true _ ▸ hl)
        obtain ⟨h1, h2, h3⟩ := ih v hv
        refine ⟨h1, ?_, fun x hx hn => ?_⟩
        · rcases List.mem_cons.1 h2 with h | h
          · rw [h]; exact .head _
          · exact .tail _ (.tail _ h)
        · rcases List.mem_cons.1 hx with h | h
          · exact h3 x (h ▸ .head _) hn
          · rcases List.mem_cons.1 h with h | h
            · rw [h]; exact (h3 v (.head _) hv).trans hge
            · exact h3 x (.tail _ h) hn

example : [.nan false, .fin false 3, .inf true].foldl setIfSmaller (.fin false 4) = .inf true := by decide +kernel

/-- **C120, running maximum.** The same for `set_if_bigger`. -/
theorem C120_running_max (vs : List Fl) (v : Fl) (hv : ¬ IsNan v) :
    ¬ IsNan (vs.foldl setIfBigger v) ∧ vs.foldl setIfBigger v ∈ v :: vs ∧
    ∀ x ∈ v :: vs, ¬ IsNan x → num x ≤ num (vs.foldl setIfBigger v) := by
  induction vs generalizing v with
  | nil => exact ⟨hv, .head _, fun x hx _ => by rw [List.mem_singleton.1 hx]; exact le_refl _⟩
  | cons y ys ih =>
    rw [List.foldl_cons]
    by_cases hy : IsNan y
    · have e : setIfBigger v y = v := by unfold setIfBigger; rw [lt_nan_right hy]; rfl
      rw [e]
      obtain ⟨h1, h2, h3⟩ := ih v hv
      refine ⟨h1, ?_, fun x hx hn => ?_⟩
      · rcases List.mem_cons.1 h2 with h | h
        · rw [h]; exact .head _
        · exact .tail _ (.tail _ h)
      · rcases List.mem_cons.1 hx with h | h
        · exact h3 x (h ▸ .head _) hn
        · rcases List.mem_cons.1 h with h | h
          · exact absurd (h ▸ hy) hn
          · exact h3 x (.tail _ h) hn
    · rw [show setIfBigger v y = if lt v y then y else v from rfl]
      by_cases hl : lt v y = true
      · rw [if_pos hl]
        have hlt := (lt_iff hv hy).1 hl
        obtain ⟨h1, h2, h3⟩ := ih y hy
        refine ⟨h1, .tail _ h2, fun x hx hn => ?_⟩
        rcases List.mem_cons.1 hx with h | h
        · rw [h]; exact hlt.le.trans (h3 y (.head _) hy)
        · exact h3 x h hn
      · rw [if_neg hl]
        have hge := (lt_false hv hy).1 (Bool.not_eq_true _ ▸ hl)
        obtain ⟨h1, h2, h3⟩ := ih v hv
        refine ⟨h1, ?_, fun x hx hn => ?_⟩
        · rcases List.mem_cons.1 h2 with h | h
          · rw [h]; exact .head _
          · exact .tail _ (.tail _ h)
        · rcases List.mem_cons.1 hx with h | h
          · exact h3 x (h ▸ .head _) hn
          · rcases List.mem_cons.1 h with h | h
            · rw [h]; exact hge.trans (h3 v (.head _) hv)
            · exact h3 x (.tail _ h) hn

/-- **C120, running minimum, violated.** From NaN on, it stays NaN whatever follows. -/
theorem C120_running_nan_violated (vs : List Fl) (v : Fl) (hv : IsNan v) :
    vs.foldl setIfSmaller v = v ∧ vs.foldl setIfBigger v = v := by
  have e1 : ∀ y, setIfSmaller v y = v := fun y => by unfold setIfSmaller; rw [lt_nan_right hv]; rfl
  have e2 : ∀ y, setIfBigger v y = v := fun y => by unfold setIfBigger; rw [lt_nan_left hv]; rfl
  induction vs with
  | nil => exact ⟨rfl, rfl⟩
  | cons y ys ih => rw [List.foldl_cons, List.foldl_cons, e1, e2]; exact ih

/-- **C120, intervals.** An interval of numbers that is extended by numbers contains what it contained, and all of them. -/
theorem C120_extend (vs : List Fl) (b : Bounds) (hl : ¬ IsNan b.lower) (hu : ¬ IsNan b.upper) (h : ∀ v ∈ vs, ¬ IsNan v) :
    (∀ x, b.isWithin x = true → (vs.foldl Bounds.extend b).isWithin x = true) ∧
    ∀ v ∈ vs, (vs.foldl Bounds.extend b).isWithin v = true := by
  induction vs generalizing b with
  | nil => exact ⟨fun x hx => hx, fun v hv => absurd hv List.not_mem_nil⟩
  | cons y ys ih =>
    rw [List.foldl_cons]
    have hy := h y (.head _)
    obtain ⟨m1, m2, -, -⟩ := C120_order hl hy
    obtain ⟨-, -, m3, m4⟩ := C120_order hu hy
    have hl' : ¬ IsNan (b.extend y).lower := by rcases m2 with e | e <;> (show ¬ IsNan (min2 _ _)); rw [e]; exacts [hl, by rw [e]; exact hy]
    have hu' : ¬ IsNan (b.extend y).upper := by rcases m4 with e | e <;> (show ¬ IsNan (max2 _ _)); rw [e]; exacts [hu, by rw [e]; exact hy]
    obtain ⟨h1, h2⟩ := ih (b.extend y) hl' hu' fun v hv => h v (.tail _ hv)
    have keep : ∀ x, b.isWithin x = true → (b.extend y).isWithin x = true := by
      intro x hx
      unfold Bounds.isWithin at hx ⊢
      rw [Bool.and_eq_true] at hx ⊢
      have hxn : ¬ IsNan x := fun hn => by rw [le_nan_right hn] at hx; exact Bool.noConfusion hx.1
      rw [le_iff hl hxn, le_iff hxn hu] at hx
      rw [le_iff hl' hxn, le_iff hxn hu']
      exact ⟨(m1 ▸ min_le_left _ _).trans hx.1, hx.2.trans (m3 ▸ le_max_left _ _)⟩
    refine ⟨fun x hx => h1 x (keep x hx), fun v hv => ?_⟩
    rcases List.mem_cons.1 hv with e | hv
    · refine h1 v ?_
      rw [e]
      unfold Bounds.isWithin
      rw [Bool.and_eq_true, le_iff hl' hy, le_iff hy hu']
      exact ⟨m1 ▸ min_le_right _ _, m3 ▸ le_max_right _ _⟩
    · exact h2 v hv

example : let b := [.fin false 5, .fin true 7].foldl Bounds.extend ⟨.fin false 1, .fin false 1⟩
    b.isWithin (.fin false 5) = true ∧ b.isWithin (.fin true 7) = true := by decide +kernel

/-- **C120, intervals, violated.** An interval that is extended by NaN contains nothing; the next number becomes its lower
end, and all smaller numbers it contained are lost. -/
theorem C120_extend_nan_violated (b : Bounds) {n v x : Fl} (hn : IsNan n) (hv : ¬ IsNan v) (hx : ¬ IsNan x)
    (hlt : num x < num v) :
    (∀ y, (b.extend n).isWithin y = false) ∧ ((b.extend n).extend v).lower = v ∧
    ((b.extend n).extend v).isWithin x = false := by
  have e1 : min2 b.lower n = n := by unfold min2; rw [lt_nan_right hn]; rfl
  have e2 : min2 n v = v := by unfold min2; rw [lt_nan_left hn]; rfl
  have e : ((b.extend n).extend v).lower = v := by show min2 (min2 b.lower n) v = v; rw [e1, e2]
  refine ⟨fun y => ?_, e, ?_⟩
  · unfold Bounds.isWithin Bounds.extend
    simp only [e1]
    rw [le_nan_left hn]; rfl
  · unfold Bounds.isWithin
    rw [e]
    have : le v x = false := by rw [← Bool.not_eq_true, le_iff hv hx, not_le]; exact hlt
    rw [this]; rfl

example : (([.fin false 1, .fin false 2, .nan false, .fin false 5] : List Fl).foldl Bounds.extend ⟨.fin false 1, .fin false 1⟩).isWithin
    (.fin false 1) = false := by decide +kernel

/-- **C120, signs.** For numbers: `abs` is not negative and differs from the number at most in the sign; `signum` tells the
three cases apart. -/
theorem C120_sign {v : Fl} (hv : ¬ IsNan v) :
    num (ofNat 0) ≤ num (abs v) ∧ (abs v = v ∨ abs v = neg v) ∧
    (signum v = 1 ↔ num (ofNat 0) < num v) ∧ (signum v = 0 ↔ num v = num (ofNat 0)) ∧ (signum v = -1 ↔ num v < num (ofNat 0)) ∧
    (sign v = 1 ↔ num (ofNat 0) ≤ num v) ∧ (sign v = -1 ↔ num v < num (ofNat 0)) := by
  have h0 : ¬ IsNan (ofNat 0) := id
  have negnn : num v < num (ofNat 0) → num (ofNat 0) ≤ num (neg v) := by
    rcases v with s | s | ⟨s, m⟩
    · exact absurd trivial hv
    · cases s
      · intro h; exact absurd h (by rw [not_lt]; exact WithBot.coe_le_coe.2 le_top)
      · intro _; exact WithBot.coe_le_coe.2 le_top
    · intro h
      rw [num_fin, num_zero, WithBot.coe_lt_coe, WithTop.coe_lt_coe] at h
      rw [show neg (.fin s m) = .fin (!s) m from rfl, num_fin, num_zero, WithBot.coe_le_coe, WithTop.coe_le_coe]
      have := num_neg (a := .fin s m) s m
      rw [show neg (.fin s m) = .fin (!s) m from rfl] at this
      rw [this]
      linarith
  unfold abs signum sign
  rw [← lt_iff h0 hv, ← lt_iff hv h0, ← le_iff h0 hv]
  rcases lt_trichotomy (num v) (num (ofNat 0)) with h | h | h
  · have a := (lt_iff hv h0).2 h
    have b := (lt_false h0 hv).2 h.le
    have c : le (ofNat 0) v = false := by rw [← Bool.not_eq_true, le_iff h0 hv]; exact not_le.2 h
    rw [a, b, c]
    simp [negnn h, h.ne]
  · have a := (lt_false hv h0).2 h.ge
    have b := (lt_false h0 hv).2 h.le
    have c := (le_iff h0 hv).2 h.ge
    rw [a, b, c]
    simp [h]
  · have a := (lt_false hv h0).2 h.le
    have b := (lt_iff h0 hv).2 h
    have c := (le_iff h0 hv).2 h.le
    rw [a, b, c]
    simp [h.le, h.ne']

/-- **C120, signs, violated.** `abs` keeps the sign of a negative zero, so one divided by it is negative infinity. The sign
of NaN is that of a negative number for `sign`, and that of zero for `signum` and `same_sign`. -/
theorem C120_sign_violated (f : Fmt) {n : Fl} (hn : IsNan n) :
    abs (.fin true 0) = .fin true 0 ∧ div f (ofNat 1) (abs (.fin true 0)) = .inf true ∧
    sign n = -1 ∧ signum n = 0 ∧ sameSign n (ofNat 0) = true := by
  have e : abs (.fin true 0) = .fin true 0 := by decide +kernel
  refine ⟨e, ?_, ?_, ?_, ?_⟩
  · rw [e]; simp [div, ofNat]
  · unfold sign; rw [le_nan_right hn]; rfl
  · unfold signum; rw [lt_nan_left hn, lt_nan_right hn]; rfl
  · have : signum n = 0 := by unfold signum; rw [lt_nan_left hn, lt_nan_right hn]; rfl
    unfold sameSign; rw [this]; decide +kernel

/-- **C120, equality.** Every finite number equals itself, within any finite tolerance that is not negative. -/
theorem C120_equal_partial (f : Fmt) (s : Bool) (x e : Rat) (he : 0 ≤ e) (hx : 0 ≤ x) :
    equal f (.fin s x) (.fin s x) (.fin false e) = true := by
  have hsub : sub f (.fin s x) (.fin s x) = .fin (s && !s) 0 := by
    unfold sub
    show ofRat f _ (val (.fin s x) + val (.fin (!s) x)) = _
    rw [show val (.fin s x) + val (.fin (!s) x) = 0 by cases s <;> simp [val]]
    simp [ofRat]
  have hz : (s && !s) = false := by cases s <;> rfl
  unfold equal
  rw [hsub, hz, show abs (.fin false 0) = .fin false 0 by decide +kernel]
  have habs : ∃ t, abs (.fin s x) = .fin t x ∧ val (.fin t x) = x := by
    unfold abs
    by_cases h : lt (.fin s x) (ofNat 0) = true
    · have := (lt_iff (a := .fin s x) (b := ofNat 0) id id).1 h
      rw [if_pos h]
      cases s
      · exfalso
        rw [num_fin, num_zero, WithBot.coe_lt_coe, WithTop.coe_lt_coe] at this
        simp [val] at this
        linarith
      · exact ⟨false, rfl, by simp [val]⟩
    · have := (lt_false (a := .fin s x) (b := ofNat 0) id id).1 (Bool.not_eq_true _ ▸ h)
      rw [if_neg h]
      refine ⟨s, rfl, ?_⟩
      cases s
      · simp [val]
      · rw [num_fin, num_zero, WithBot.coe_le_coe, WithTop.coe_le_coe] at this
        simp [val] at this
        simp [val]; linarith
  obtain ⟨t, ht, hv⟩ := habs
  rw [ht]
  show le _ (ofRat f _ _) = true
  rw [le_iff id (ofRat_not_nan _ _), num_ofRat, num_fin]
  have e0 : val (.fin false 0) = 0 := by simp [val]
  rw [e0, hv]
  exact R_nonneg (mul_nonneg hx (by simpa [val] using he))

example : equal binary64 (.fin true 3) (.fin true 3) (.fin false (1 / 4)) = true := by decide +kernel

/-- **C120, equality, violated.** An infinite value does not equal itself, and neither does NaN, whatever the tolerance. -/
theorem C120_equal_violated (f : Fmt) (e : Fl) (s : Bool) :
    equal f (.inf s) (.inf s) e = false ∧ equal f (.nan s) (.nan s) e = false := by
  have hn : ∀ b e', le (abs (.nan b)) e' = false := fun b e' => le_nan_left (show IsNan (abs (.nan b)) from trivial)
  constructor
  · unfold equal
    rw [show sub f (.inf s) (.inf s) = .nan false by cases s <;> rfl]
    exact hn _ _
  · unfold equal
    exact hn _ _

/-- **C120, changes, violated.** `set_if_different` reports a change whenever NaN is set, also when nothing changed. -/
theorem C120_different_violated {v n : Fl} (hn : IsNan n) : setIfDifferent v n = (n, true) := by
  unfold setIfDifferent; rw [eq_nan_left hn]; rfl

end Ieee
end Xo
