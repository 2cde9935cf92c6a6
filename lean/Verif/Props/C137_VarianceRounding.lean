import Verif.Model.IeeeStats
import Verif.Props.C123_AverageRounding

/-!
# C137: means, variances and weighted averages with rounding
-/
namespace Xo
namespace Ieee
open Num Spec

variable {f : Fmt}

namespace Spec
/-- The opposite of a number; the sign of a zero does not matter. -/
def Opp : Fl → Fl → Prop
  | .nan _, .nan _ => True
  | .inf s, .inf t => t = !s
  | .fin s x, .fin t y => (if t then -y else y) = -(if s then -x else x)
  | _, _ => False

/-- The same number; the sign of a zero does not matter. -/
def Same : Fl → Fl → Prop
  | .nan _, .nan _ => True
  | .inf s, .inf t => t = s
  | .fin s x, .fin t y => (if t then -y else y) = (if s then -x else x)
  | _, _ => False
end Spec

/-! ## Never negative, never NaN -/

theorem add_fin_not_nan {a b : Fl} (ha : ¬ IsNan a) (hb : Finite b) : ¬ IsNan (add f a b) := by
  rcases b with t | t | ⟨t, y⟩
  · exact absurd hb id
  · exact absurd hb id
  rcases a with s | s | ⟨s, x⟩
  · exact absurd trivial ha
  · exact id
  · exact ofRat_not_nan _ _

theorem acc_not_nan (vs : List Fl) (hv : ∀ v ∈ vs, Finite v) (i : Fl) (hi : ¬ IsNan i) : ¬ IsNan (accumulate f vs i) := by
  induction vs generalizing i with
  | nil => exact hi
  | cons v vs ih => exact ih (fun w hw => hv w (.tail _ hw)) _ (add_fin_not_nan hi (hv v (.head _)))

theorem div_nat_not_nan {a : Fl} (ha : ¬ IsNan a) {n : Nat} (hn : n ≠ 0) : ¬ IsNan (div f a (ofNat n)) := by
  rcases a with s | s | ⟨s, x⟩
  · exact absurd trivial ha
  · exact id
  · rw [div_nat _ _ _ hn]
    exact ofRat_not_nan _ _

/-- Not NaN and not negative. -/
def NonNeg (a : Fl) : Prop := ¬ IsNan a ∧ num (ofNat 0) ≤ num a

theorem square_nonneg {x m : Fl} (hx : Finite x) (hm : ¬ IsNan m) : NonNeg (mul f (sub f x m) (sub f x m)) := by
  have hd : ¬ IsNan (sub f x m) := by
    rcases x with s | s | ⟨s, x⟩
    · exact absurd hx id
    · exact absurd hx id
    rcases m with t | t | ⟨t, y⟩
    · exact absurd trivial hm
    · exact id
    · exact ofRat_not_nan _ _
  generalize sub f x m = d at hd
  rcases d with s | s | ⟨s, y⟩
  · exact absurd trivial hd
  · refine ⟨id, ?_⟩
    rw [num_zero]
    show _ ≤ num (.inf (s != s))
    rw [bne_self_eq_false]
    exact WithBot.coe_le_coe.2 le_top
  · refine ⟨ofRat_not_nan _ _, ?_⟩
    rw [num_zero, num_mul]
    exact R_nonneg (mul_self_nonneg _)

theorem add_nonneg' {a b : Fl} (ha : NonNeg a) (hb : NonNeg b) : NonNeg (add f a b) := by
  obtain ⟨h1, h2⟩ := ha
  obtain ⟨h3, h4⟩ := hb
  rw [num_zero] at h2 h4
  unfold NonNeg
  rw [num_zero]
  rcases a with s | s | ⟨s, x⟩
  · exact absurd trivial h1
  · cases s
    · rcases b with t | t | ⟨t, y⟩
      · exact absurd trivial h3
      · cases t
        · exact ⟨id, h2⟩
        · exact absurd h4 (not_le.2 (WithBot.bot_lt_coe _))
      · exact ⟨id, h2⟩
    · exact absurd h2 (not_le.2 (WithBot.bot_lt_coe _))
  · rcases b with t | t | ⟨t, y⟩
    · exact absurd trivial h3
    · cases t
      · exact ⟨id, h4⟩
      · exact absurd h4 (not_le.2 (WithBot.bot_lt_coe _))
    · rw [num_fin, WithBot.coe_le_coe, WithTop.coe_le_coe] at h2 h4
      refine ⟨ofRat_not_nan _ _, ?_⟩
      rw [num_add]
      exact R_nonneg (add_nonneg h2 h4)

theorem squares_nonneg (vs : List Fl) (hv : ∀ v ∈ vs, Finite v) (m : Fl) (hm : ¬ IsNan m) (i : Fl) (hi : NonNeg i) :
    NonNeg (squares f m vs i) := by
  induction vs generalizing i with
  | nil => exact hi
  | cons v vs ih => exact ih (fun w hw => hv w (.tail _ hw)) _ (add_nonneg' hi (square_nonneg (hv v (.head _)) hm))

/-- **C137, variance.** The mean and the variance of finite numbers, of which there is at least one, are never NaN, and the
variance is never negative, however the sums are rounded and even if they are too big for the type. -/
theorem C137_variance (vs : List Fl) (hne : vs ≠ []) (hv : ∀ v ∈ vs, Finite v) :
    ∃ m s, meanVar f vs = .ok (m, s) ∧ ¬ IsNan m ∧ ¬ IsNan s ∧ num (ofNat 0) ≤ num s := by
  have hn : vs.length ≠ 0 := by simpa using hne
  have hm : ¬ IsNan (div f (accumulate f vs (ofNat 0)) (ofNat vs.length)) := div_nat_not_nan (acc_not_nan vs hv _ id) hn
  obtain ⟨k1, k2⟩ := squares_nonneg (f := f) vs hv _ hm (ofNat 0) ⟨id, le_refl _⟩
  refine ⟨div f (accumulate f vs (ofNat 0)) (ofNat vs.length), _, ?_, hm, div_nat_not_nan (f := f) k1 hn, ?_⟩
  · unfold meanVar average
    rw [if_neg hne]
    rfl
  · generalize squares f _ vs _ = a at k1 k2
    rw [num_zero] at k2 ⊢
    rcases a with s | s | ⟨s, x⟩
    · exact absurd trivial k1
    · cases s
      · exact k2
      · exact absurd k2 (not_le.2 (WithBot.bot_lt_coe _))
    · rw [num_fin, WithBot.coe_le_coe, WithTop.coe_le_coe] at k2
      rw [div_nat _ _ _ hn, num_ofRat]
      exact R_nonneg (div_nonneg k2 (Nat.cast_nonneg _))

example : meanVar binary64 [.fin false 1, .fin false 3, .fin false 5, .fin true 1] = .ok (.fin false 2, .fin false 5) ∧
    meanVar binary32 [.fin false (maxVal binary32), .fin false (maxVal binary32)] = .ok (.inf false, .inf false) := by decide +kernel

/-! ## Opposite numbers -/

theorem opp_neg (a : Fl) : Opp a (neg a) := by
  rcases a with s | s | ⟨s, x⟩
  · trivial
  · rfl
  · cases s <;> simp [Opp, neg]

theorem opp_fin {s t : Bool} {x y : Rat} : Opp (.fin s x) (.fin t y) ↔ val (.fin t y) = -val (.fin s x) := Iff.rfl

theorem same_fin {s t : Bool} {x y : Rat} : Same (.fin s x) (.fin t y) ↔ val (.fin t y) = val (.fin s x) := Iff.rfl

theorem same_refl (a : Fl) : Same a a := by
  rcases a with s | s | ⟨s, x⟩
  · trivial
  · rfl
  · rfl

theorem ofRat_sign {z z' : Bool} {x : Rat} (h : x ≠ 0) : ofRat f z x = ofRat f z' x := by
  unfold ofRat
  rw [if_neg h, if_neg h]

theorem ofRat_opp (z z' : Bool) (x : Rat) : Opp (ofRat f z x) (ofRat f z' (-x)) := by
  by_cases h : x = 0
  · subst h
    rw [neg_zero]
    unfold ofRat
    rw [if_pos rfl, if_pos rfl, opp_fin]
    cases z <;> cases z' <;> simp [val]
  · rw [ofRat_sign (z := z') (z' := !z) (neg_ne_zero.2 h), ofRat_neg]
    exact opp_neg _

theorem ofRat_same (z z' : Bool) (x : Rat) : Same (ofRat f z x) (ofRat f z' x) := by
  by_cases h : x = 0
  · subst h
    unfold ofRat
    rw [if_pos rfl, if_pos rfl, same_fin]
    cases z <;> cases z' <;> simp [val]
  · rw [ofRat_sign (z := z) (z' := z') h]
    exact same_refl _

theorem add_opp {a a' b b' : Fl} (ha : Opp a a') (hb : Opp b b') : Opp (add f a b) (add f a' b') := by
  rcases a with s | s | ⟨s, x⟩ <;> rcases a' with s' | s' | ⟨s', x'⟩ <;> first | exact absurd ha id | skip
  · rcases b with t | t | ⟨t, y⟩ <;> rcases b' with t' | t' | ⟨t', y'⟩ <;> first | exact absurd hb id | trivial
  · have ha : s' = !s := ha
    subst ha
    rcases b with t | t | ⟨t, y⟩ <;> rcases b' with t' | t' | ⟨t', y'⟩ <;> first | exact absurd hb id | skip
    · trivial
    · have hb : t' = !t := hb
      subst hb
      cases s <;> cases t <;> simp [add, Opp]
    · rfl
  · rcases b with t | t | ⟨t, y⟩ <;> rcases b' with t' | t' | ⟨t', y'⟩ <;> first | exact absurd hb id | skip
    · trivial
    · exact hb
    · rw [opp_fin] at ha hb
      show Opp (ofRat f _ _) (ofRat f _ _)
      rw [ha, hb, ← neg_add]
      exact ofRat_opp _ _ _

theorem add_same {a a' b b' : Fl} (ha : Same a a') (hb : Same b b') : Same (add f a b) (add f a' b') := by
  rcases a with s | s | ⟨s, x⟩ <;> rcases a' with s' | s' | ⟨s', x'⟩ <;> first | exact absurd ha id | skip
  · rcases b with t | t | ⟨t, y⟩ <;> rcases b' with t' | t' | ⟨t', y'⟩ <;> first | exact absurd hb id | trivial
  · have ha : s' = s := ha
    subst ha
    rcases b with t | t | ⟨t, y⟩ <;> rcases b' with t' | t' | ⟨t', y'⟩ <;> first | exact absurd hb id | skip
    · trivial
    · have hb : t' = t := hb
      subst hb
      exact same_refl _
    · rfl
  · rcases b with t | t | ⟨t, y⟩ <;> rcases b' with t' | t' | ⟨t', y'⟩ <;> first | exact absurd hb id | skip
    · trivial
    · exact hb
    · rw [same_fin] at ha hb
      show Same (ofRat f _ _) (ofRat f _ _)
      rw [ha, hb]
      exact ofRat_same _ _ _

theorem neg_opp {a a' : Fl} (h : Opp a a') : Opp (neg a) (neg a') := by
  rcases a with s | s | ⟨s, x⟩ <;> rcases a' with s' | s' | ⟨s', x'⟩ <;> first | exact absurd h id | skip
  · trivial
  · have h : s' = !s := h
    subst h
    rfl
  · rw [opp_fin] at h
    have e : ∀ r z, val (.fin (!r) z) = -val (.fin r z) := fun r z => num_neg (a := .fin r z) r z
    show Opp (.fin (!s) x) (.fin (!s') x')
    rw [opp_fin, e, e, h]

theorem square_same {a a' : Fl} (h : Opp a a') : Same (mul f a a) (mul f a' a') := by
  rcases a with s | s | ⟨s, x⟩ <;> rcases a' with s' | s' | ⟨s', x'⟩ <;> first | exact absurd h id | skip
  · trivial
  · show (s' != s') = (s != s)
    simp
  · rw [opp_fin] at h
    show Same (ofRat f _ _) (ofRat f _ _)
    rw [h, neg_mul_neg]
    exact ofRat_same _ _ _

theorem div_opp {a a' : Fl} (h : Opp a a') {n : Nat} (hn : n ≠ 0) : Opp (div f a (ofNat n)) (div f a' (ofNat n)) := by
  rcases a with s | s | ⟨s, x⟩ <;> rcases a' with s' | s' | ⟨s', x'⟩ <;> first | exact absurd h id | skip
  · trivial
  · have h : s' = !s := h
    subst h
    cases s <;> rfl
  · rw [opp_fin] at h
    rw [div_nat _ _ _ hn, div_nat _ _ _ hn, h, neg_div]
    exact ofRat_opp _ _ _

theorem div_same {a a' : Fl} (h : Same a a') {n : Nat} (hn : n ≠ 0) : Same (div f a (ofNat n)) (div f a' (ofNat n)) := by
  rcases a with s | s | ⟨s, x⟩ <;> rcases a' with s' | s' | ⟨s', x'⟩ <;> first | exact absurd h id | skip
  · trivial
  · have h : s' = s := h
    subst h
    rfl
  · rw [same_fin] at h
    rw [div_nat _ _ _ hn, div_nat _ _ _ hn, h]
    exact ofRat_same _ _ _

/-- **C137, opposite values.** With the opposite values the mean is the opposite and the variance is the same, bit for bit
except for the signs of zeros; also for infinities and NaN. -/
theorem C137_opposite (vs : List Fl) (hne : vs ≠ []) :
    ∃ m s m' s', meanVar f vs = .ok (m, s) ∧ meanVar f (vs.map neg) = .ok (m', s') ∧ Opp m m' ∧ Same s s' := by
  have hn : vs.length ≠ 0 := by simpa using hne
  have hne' : vs.map neg ≠ [] := by simpa using hne
  have hacc : ∀ (ws : List Fl) (i i' : Fl), Opp i i' → Opp (accumulate f ws i) (accumulate f (ws.map neg) i') := by
    intro ws
    induction ws with
    | nil => intro i i' h; exact h
    | cons w ws ih => intro i i' h; exact ih _ _ (add_opp h (opp_neg w))
  have h0 : Opp (ofNat 0) (ofNat 0) := by simp [Opp, ofNat]
  have hm := div_opp (f := f) (hacc vs _ _ h0) hn
  have hsq : ∀ (ws : List Fl) (i i' : Fl), Same i i' →
      Same (squares f (div f (accumulate f vs (ofNat 0)) (ofNat vs.length)) ws i)
        (squares f (div f (accumulate f (vs.map neg) (ofNat 0)) (ofNat vs.length)) (ws.map neg) i') := by
    intro ws
    induction ws with
    | nil => intro i i' h; exact h
    | cons w ws ih =>
      intro i i' h
      exact ih _ _ (add_same h (square_same (add_opp (opp_neg w) (neg_opp hm))))
  have hs := div_same (f := f) (hsq vs _ _ (same_refl (ofNat 0))) hn
  refine ⟨_, _, _, _, ?_, ?_, hm, hs⟩
  · unfold meanVar average
    rw [if_neg hne]
    rfl
  · unfold meanVar average
    rw [if_neg hne', List.length_map]
    rfl

/-! ## Whole numbers -/

theorem num_sub_whole (hf : f.Ok) (hmin : f.emin ≤ 0) (hmax : (f.prec : Int) ≤ f.emax) {a b : Fl} {m n : Int}
    (ha : num a = (((m : Int) : Rat) : WithTop Rat)) (hb : num b = (((n : Int) : Rat) : WithTop Rat)) (h : (m - n).natAbs < 2 ^ f.prec) :
    num (sub f a b) = (((m - n : Int) : Rat) : WithTop Rat) := by
  obtain ⟨s, x, rfl, ea⟩ := finite_of_num ha
  obtain ⟨t, y, rfl, eb⟩ := finite_of_num hb
  rw [num_sub, ea, eb, ← Int.cast_sub]
  apply R_exact hf
  refine ⟨(m - n).natAbs, 0, h, hmin, by omega, ?_⟩
  rw [← Int.cast_abs, Int.abs_eq_natAbs]
  simp

theorem num_mul_whole (hf : f.Ok) (hmin : f.emin ≤ 0) (hmax : (f.prec : Int) ≤ f.emax) {a : Fl} {m : Int}
    (ha : num a = (((m : Int) : Rat) : WithTop Rat)) (h : (m * m).natAbs < 2 ^ f.prec) :
    num (mul f a a) = (((m * m : Int) : Rat) : WithTop Rat) := by
  obtain ⟨s, x, rfl, ea⟩ := finite_of_num ha
  rw [num_mul, ea, ← Int.cast_mul]
  apply R_exact hf
  refine ⟨(m * m).natAbs, 0, h, hmin, by omega, ?_⟩
  rw [← Int.cast_abs, Int.abs_eq_natAbs]
  simp

theorem num_add_whole (hf : f.Ok) (hmin : f.emin ≤ 0) (hmax : (f.prec : Int) ≤ f.emax) {a b : Fl} {m n : Int}
    (ha : num a = (((m : Int) : Rat) : WithTop Rat)) (hb : num b = (((n : Int) : Rat) : WithTop Rat)) (h : (m + n).natAbs < 2 ^ f.prec) :
    num (add f a b) = (((m + n : Int) : Rat) : WithTop Rat) := by
  obtain ⟨s, x, rfl, ea⟩ := finite_of_num ha
  obtain ⟨t, y, rfl, eb⟩ := finite_of_num hb
  rw [num_add, ea, eb, ← Int.cast_add]
  apply R_exact hf
  refine ⟨(m + n).natAbs, 0, h, hmin, by omega, ?_⟩
  rw [← Int.cast_abs, Int.abs_eq_natAbs]
  simp

theorem squares_whole (hf : f.Ok) (hmin : f.emin ≤ 0) (hmax : (f.prec : Int) ≤ f.emax) {m : Fl} {c : Int}
    (hm : num m = (((c : Int) : Rat) : WithTop Rat)) (ns : List Int) (i : Fl) (k : Int) (hk : 0 ≤ k)
    (hi : num i = (((k : Int) : Rat) : WithTop Rat)) (h : k + (ns.map fun n => (n - c) * (n - c)).sum < 2 ^ f.prec) :
    num (squares f m (ns.map fun n => Fl.fin (decide (n < 0)) n.natAbs) i)
      = (((k + (ns.map fun n => (n - c) * (n - c)).sum : Int) : Rat) : WithTop Rat) := by
  have hpos : ∀ l : List Int, 0 ≤ (l.map fun n => (n - c) * (n - c)).sum := by
    intro l
    induction l with
    | nil => simp
    | cons a as ih => rw [List.map_cons, List.sum_cons]; have := mul_self_nonneg (a - c); omega
  induction ns generalizing i k with
  | nil => simpa [squares] using hi
  | cons n ns ih =>
    rw [List.map_cons, List.sum_cons] at h
    rw [List.map_cons, List.map_cons, List.sum_cons]
    have h1 := mul_self_nonneg (n - c)
    have h2 := hpos ns
    have hn : num (Fl.fin (decide (n < 0)) (n.natAbs : Rat)) = (((n : Int) : Rat) : WithTop Rat) := by
      rw [num_fin]
      congr 2
      by_cases hn : n < 0
      · rw [decide_eq_true hn]
        have h2 : ((n.natAbs : Nat) : Rat) = -n := by rw [← Int.cast_natCast, show ((n.natAbs : Nat) : Int) = -n by omega]; push_cast; rfl
        simp only [val]; rw [h2]; simp
      · rw [decide_eq_false hn]
        simp only [val]; rw [← Int.cast_natCast, show ((n.natAbs : Nat) : Int) = n by omega]; simp
    have h3 : (n - c).natAbs < 2 ^ f.prec := by
      have : ((n - c).natAbs : Int) ≤ (n - c) * (n - c) := by
        rw [← Int.natAbs_mul_self' (n - c)]
        rcases Nat.eq_zero_or_pos (n - c).natAbs with h | h
        · rw [h]; simp
        · exact_mod_cast Nat.le_mul_of_pos_left _ h
      have h4 : ((n - c).natAbs : Int) < 2 ^ f.prec := by omega
      exact_mod_cast h4
    have h5 : ((n - c) * (n - c)).natAbs < 2 ^ f.prec := by
      have : ((((n - c) * (n - c)).natAbs : Nat) : Int) < 2 ^ f.prec := by omega
      exact_mod_cast this
    have h6 : (k + (n - c) * (n - c)).natAbs < 2 ^ f.prec := by
      have : (((k + (n - c) * (n - c)).natAbs : Nat) : Int) < 2 ^ f.prec := by omega
      exact_mod_cast this
    have e := num_add_whole hf hmin hmax hi (num_mul_whole hf hmin hmax (num_sub_whole hf hmin hmax hn hm h3) h5) h6
    show num (squares f m _ (add f i _)) = _
    rw [ih _ (k + (n - c) * (n - c)) (by omega) e (by omega)]
    congr 3
    ring

/-- **C137, whole numbers.** For whole numbers whose mean is a whole number and whose magnitudes and squared differences sum
to less than 2^24 for `float` and 2^53 for `double`, the mean is exact and the variance is the number nearest to the exact
one. -/
theorem C137_whole_partial (hf : f.Ok) (hmin : f.emin ≤ 0) (hmax : (f.prec : Int) ≤ f.emax) (ns : List Int) (hne : ns ≠ []) (c : Int)
    (hc : ns.sum = c * ns.length) (h : (ns.map Int.natAbs).sum < 2 ^ f.prec)
    (h2 : (ns.map fun n => (n - c) * (n - c)).sum < 2 ^ f.prec) :
    ∃ m s, meanVar f (ns.map fun n => Fl.fin (decide (n < 0)) n.natAbs) = .ok (m, s) ∧
      num m = (((c : Int) : Rat) : WithTop Rat) ∧
      num s = num (ofRat f false (((ns.map fun n => (n - c) * (n - c)).sum : Int) / ns.length)) := by
  obtain ⟨a, ea, va⟩ := C123_whole hf hmin hmax ns hne h
  have hn : ns.length ≠ 0 := by simpa using hne
  have hnq : (ns.length : Rat) ≠ 0 := by exact_mod_cast hn
  have hb : ∀ l : List Int, l.sum.natAbs ≤ (l.map Int.natAbs).sum := by
    intro l
    induction l with
    | nil => simp
    | cons a as ih => rw [List.sum_cons, List.map_cons, List.sum_cons]; omega
  have hcb : c.natAbs < 2 ^ f.prec := by
    have h3 := hb ns
    rw [hc, Int.natAbs_mul, Int.natAbs_natCast] at h3
    have : c.natAbs ≤ c.natAbs * ns.length := Nat.le_mul_of_pos_right _ (Nat.pos_of_ne_zero hn)
    omega
  have hma : num a = (((c : Int) : Rat) : WithTop Rat) := by
    rw [va, num_ofRat, hc]
    push_cast
    rw [mul_div_cancel_right₀ _ hnq]
    apply R_exact hf
    refine ⟨c.natAbs, 0, hcb, hmin, by omega, ?_⟩
    rw [← Int.cast_abs, Int.abs_eq_natAbs]
    simp
  have hsq := squares_whole hf hmin hmax hma ns (ofNat 0) 0 (le_refl _) (by rw [num_zero]; simp) (by simpa using h2)
  refine ⟨a, div f (squares f a (ns.map fun n => Fl.fin (decide (n < 0)) n.natAbs) (ofNat 0))
    (ofNat (ns.map fun n => Fl.fin (decide (n < 0)) n.natAbs).length), ?_, hma, ?_⟩
  · unfold meanVar
    rw [ea]
    rfl
  · rw [zero_add] at hsq
    obtain ⟨s, x, e, v⟩ := finite_of_num hsq
    rw [e, List.length_map, num_div_nat (a := .fin s x) trivial hn, v, num_ofRat]

example : ([7, -2, 4, 3] : List Int).sum = 3 * ([7, -2, 4, 3] : List Int).length ∧
    meanVar binary32 (([7, -2, 4, 3] : List Int).map fun n => Fl.fin (decide (n < 0)) n.natAbs) =
      .ok (.fin false 3, .fin false (21 / 2)) := by decide +kernel

/-- **C137, equal values, violated.** The mean of ten times 0.1 is below 0.1, and the variance is not zero. -/
theorem C137_equal_violated :
    ∃ m s, meanVar binary64 (List.replicate 10 tenth) = .ok (m, s) ∧ num m < num tenth ∧ num (ofNat 0) < num s :=
  ⟨_, _, rfl, by decide +kernel, by decide +kernel⟩

/-! ## Weighted averages -/

theorem mul_one (hf : f.Ok) {v : Fl} (h : OfType f v) : Same v (mul f (ofNat 1) v) := by
  rcases v with s | s | ⟨s, x⟩
  · trivial
  · show (false != s) = s
    cases s <;> rfl
  · show Same _ (ofRat f _ _)
    have e1 : val (.fin false ((1 : Nat) : Rat)) = 1 := by simp [val]
    rw [e1, one_mul]
    obtain ⟨t, y, e, hv⟩ := ofRat_finite (f := f) (z := false != s) (x := val (.fin s x))
      (by rw [rq_val h]; exact val_lt h)
    rw [e, same_fin, hv, rq_val h]

theorem same_trans {a b c : Fl} (h1 : Same a b) (h2 : Same b c) : Same a c := by
  rcases a with s | s | ⟨s, x⟩ <;> rcases b with s' | s' | ⟨s', x'⟩ <;> first | exact absurd h1 id | skip
  all_goals rcases c with t | t | ⟨t, y⟩ <;> first | exact absurd h2 id | skip
  · trivial
  · exact Eq.trans h2 h1
  · exact Eq.trans h2 h1

/-- **C137, unit weights.** Adding values with the default weight gives their average, for up to 2^24 values of type `float`
and 2^53 of type `double`; without values it gives zero and says that it is empty. -/
theorem C137_unit_weights (hf : f.Ok) (hmin : f.emin ≤ 0) (hmax : (f.prec : Int) ≤ f.emax) (vs : List Fl) (hv : ∀ v ∈ vs, OfType f v)
    (hlen : vs.length < 2 ^ f.prec) :
    ((Avg.make.addAll f vs).empty = true ↔ vs = []) ∧
      (vs = [] → (Avg.make.addAll f vs).get f = ofNat 0) ∧
      (vs ≠ [] → ∃ a, average f vs = .ok a ∧ Same a ((Avg.make.addAll f vs).get f)) := by
  have key : ∀ (ws : List Fl) (a : Avg) (i : Fl) (n : Nat), (∀ v ∈ ws, OfType f v) → Same i a.totV →
      num a.totW = (((n : Int) : Rat) : WithTop Rat) → n + ws.length < 2 ^ f.prec →
      Same (accumulate f ws i) (a.addAll f ws).totV ∧
        num (a.addAll f ws).totW = ((((n + ws.length : Nat) : Int) : Rat) : WithTop Rat) := by
    intro ws
    induction ws with
    | nil => intro a i n _ h1 h2 _; exact ⟨h1, h2⟩
    | cons w ws ih =>
      intro a i n hw h1 h2 h3
      rw [List.length_cons] at h3 ⊢
      have e1 : num (ofNat 1) = (((1 : Int) : Rat) : WithTop Rat) := by simp [num, ofNat]
      have := ih (a.add f w (ofNat 1)) (add f i w) (n + 1) (fun v hm => hw v (.tail _ hm))
        (add_same h1 (mul_one hf (hw w (.head _))))
        (by
          have := num_add_whole hf hmin hmax h2 e1 (by omega)
          push_cast at this ⊢
          exact this)
        (by omega)
      rw [show n + (ws.length + 1) = n + 1 + ws.length by ring]
      exact this
  obtain ⟨k1, k2⟩ := key vs Avg.make (ofNat 0) 0 hv (same_refl _) (by simp [Avg.make, num_zero]) (by omega)
  rw [Nat.zero_add] at k2
  obtain ⟨s, x, e, v⟩ := finite_of_num k2
  have hemp : (Avg.make.addAll f vs).empty = true ↔ vs = [] := by
    unfold Avg.empty
    rw [eq_iff (by rw [e]; exact id) id, k2, num_zero, WithBot.coe_eq_coe, WithTop.coe_eq_coe]
    rw [Int.cast_natCast, Nat.cast_eq_zero, List.length_eq_zero_iff]
  refine ⟨hemp, ?_, ?_⟩
  · rintro rfl
    rfl
  · intro hne
    have hn : vs.length ≠ 0 := by simpa using hne
    unfold average
    rw [if_neg hne]
    refine ⟨_, rfl, ?_⟩
    unfold Avg.get
    have hpos : lt (ofNat 0) (Avg.make.addAll f vs).totW = true := by
      rw [lt_iff id (by rw [e]; exact id), k2, num_zero, WithBot.coe_lt_coe, WithTop.coe_lt_coe]
      exact_mod_cast Nat.pos_of_ne_zero hn
    rw [if_pos hpos]
    refine same_trans (div_same k1 hn) ?_
    have hx : x ≠ 0 := by
      intro hx
      rw [hx] at v
      have : ((vs.length : Int) : Rat) = 0 := by rw [← v]; cases s <;> simp [val]
      exact hn (by exact_mod_cast this)
    generalize (Avg.make.addAll f vs).totV = q
    rw [e]
    have hx2 : ((vs.length : Nat) : Rat) ≠ 0 := by exact_mod_cast hn
    have e5 : val (ofNat vs.length) = val (.fin s x) := by rw [v]; simp [val, ofNat]
    rcases q with t | t | ⟨t, y⟩
    · trivial
    · show (t != s) = (t != false)
      have hs : s = false := by
        by_contra hs
        have hs : s = true := by simpa using hs
        subst hs
        have h6 : OfType f (.fin true x) := by
          rw [← e]
          cases vs using List.reverseRecOn with
          | nil => exact absurd rfl hne
          | append_singleton us u =>
            unfold Avg.addAll
            rw [List.foldl_append]
            exact add_ofType hf _ _
        have h7 := binary_nonneg h6
        have h8 : (0 : Rat) ≤ ((vs.length : Int) : Rat) := by positivity
        rw [← v] at h8
        simp only [val, if_true] at h8
        exact hx (by linarith)
      rw [hs]
    · show Same (if ((vs.length : Nat) : Rat) = 0 then _ else ofRat f _ _) (if x = 0 then _ else ofRat f _ _)
      rw [if_neg hx, if_neg hx2]
      have : val (.fin false ((vs.length : Nat) : Rat)) = val (.fin s x) := e5
      rw [this]
      exact ofRat_same _ _ _

example : (Avg.make.addAll binary32 [.fin false 1, .fin true 4]).get binary32 = .fin true (3 / 2) ∧
    (Avg.make.addAll binary32 []).get binary32 = .fin false 0 := by decide +kernel

/-- Without any positive weight the average is zero, whatever the values are. -/
theorem C137_no_weight {f : Fmt} (vs : List (Fl × Fl)) (h : ∀ p ∈ vs, Finite p.2 ∧ val p.2 ≤ 0) :
    (vs.foldl (fun a p => a.add f p.1 p.2) Avg.make).get f = ofNat 0 := by
  have key : ∀ (vs : List (Fl × Fl)) (a : Avg), (∀ p ∈ vs, Finite p.2 ∧ val p.2 ≤ 0) → (a.totW = .inf true ∨ ∃ s m, a.totW = .fin s m ∧ val (.fin s m) ≤ 0) →
      ((vs.foldl (fun a p => a.add f p.1 p.2) a).totW = .inf true ∨ ∃ s m, (vs.foldl (fun a p => a.add f p.1 p.2) a).totW = .fin s m ∧ val (.fin s m) ≤ 0) := by
    intro vs
    induction vs with
    | nil => exact fun a _ h => h
    | cons p t ih =>
      intro a hp ha
      refine ih _ (fun q hq => hp q (by simp [hq])) ?_
      obtain ⟨w1, w2⟩ := hp p (by simp)
      obtain ⟨v, w⟩ := p
      cases w with
      | nan => exact w1.elim
      | inf => exact w1.elim
      | fin g y =>
        rcases ha with ha | ⟨s, m, ha, hm⟩
        · left
          show Ieee.add f a.totW (.fin g y) = _
          rw [ha]
          rfl
        · show Ieee.add f a.totW (.fin g y) = _ ∨ ∃ s m, Ieee.add f a.totW (.fin g y) = .fin s m ∧ _
          rw [ha]
          have n1 := num_add (f := f) s g m y
          have n2 := R_nonpos (f := f) (add_nonpos hm w2)
          have n3 := ofRat_not_nan (f := f) (s && g) (val (.fin s m) + val (.fin g y))
          have e : Ieee.add f (.fin s m) (.fin g y) = ofRat f (s && g) (val (.fin s m) + val (.fin g y)) := rfl
          rw [← n1] at n2
          rw [← e] at n3
          cases hc : Ieee.add f (.fin s m) (.fin g y) with
          | nan => rw [hc] at n3; exact (n3 trivial).elim
          | inf b =>
            cases b with
            | true => exact Or.inl rfl
            | false =>
              rw [hc] at n2
              exact absurd n2 (not_le.2 (WithBot.coe_lt_coe.2 (WithTop.coe_lt_top 0)))
          | fin b k =>
            rw [hc, num_fin] at n2
            exact Or.inr ⟨b, k, rfl, by exact_mod_cast n2⟩
  have k := key vs Avg.make h (Or.inr ⟨false, 0, by simp [Avg.make, ofNat], by simp [val]⟩)
  unfold Avg.get
  have hl : lt (ofNat 0) (vs.foldl (fun a p => a.add f p.1 p.2) Avg.make).totW = false := by
    rcases k with k | ⟨s, m, k, hm⟩
    · rw [k]
      rfl
    · rw [k]
      simp only [lt, ofNat, decide_eq_false_iff_not, not_lt]
      simpa [val] using hm
  rw [hl]
  rfl

example : (([(tenth, .fin true 2), (ofNat 3, ofNat 0)] : List (Fl × Fl)).foldl (fun a p => a.add binary64 p.1 p.2) Avg.make).totV ≠ ofNat 0 := by decide +kernel

/-- **C137, one value, violated.** The weighted average of a single value is another number: 0.1 with weight 3 gives more than
0.1. Values with weights that cancel are taken for none, and a large value with weight two is infinite. -/
theorem C137_weight_violated :
    (Avg.make.add binary64 tenth (ofNat 3)).get binary64 = .fin false (7205759403792795 / 2 ^ 56) ∧
    tenth = .fin false (3602879701896397 / 2 ^ 55) ∧
    ((Avg.make.add binary64 tenth (ofNat 1)).add binary64 tenth (.fin true 1)).empty = true ∧
    (Avg.make.add binary32 (.fin false (maxVal binary32)) (ofNat 2)).get binary32 = .inf false := by decide +kernel

end Ieee
end Xo
