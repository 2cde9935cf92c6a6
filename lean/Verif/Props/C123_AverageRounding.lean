import Verif.Props.C121_Rounding
import Mathlib.Algebra.Order.BigOperators.Group.List

/-!
# C123: sums and averages of floating-point values, with rounding
-/
namespace Xo
namespace Ieee
open Num Spec Xo.Spec

variable {f : Fmt}

/-- Sums that are not finite stay so. -/
theorem acc_not_finite (vs : List Fl) (hv : ∀ v ∈ vs, Finite v) (i : Fl) (hi : ¬ Finite i) : ¬ Finite (accumulate f vs i) := by
  induction vs generalizing i with
  | nil => exact hi
  | cons v vs ih =>
    refine ih (fun w hw => hv w (.tail _ hw)) (add f i v) ?_
    have := hv v (.head _)
    rcases v with r | r | ⟨r, m⟩
    · exact absurd this id
    · exact absurd this id
    · rcases i with s | s | ⟨s, n⟩
      · exact id
      · exact id
      · exact absurd trivial hi

theorem add_finite {a b : Fl} (ha : Finite a) (hb : Finite b) (h : Finite (add f a b)) : val (add f a b) = rq f (val a + val b) := by
  rcases a with s | s | ⟨s, x⟩
  · exact absurd ha id
  · exact absurd ha id
  rcases b with t | t | ⟨t, y⟩
  · exact absurd hb id
  · exact absurd hb id
  obtain ⟨_, r, m, e, v⟩ := finite_ofRat (f := f) h
  have e' : add f (.fin s x) (.fin t y) = .fin r m := e
  rw [e', v]

theorem acc_mono (hf : f.Ok) {vs ws : List Fl} (h : List.Forall₂ (fun v w => val v ≤ val w) vs ws) (hv : ∀ v ∈ vs, Finite v)
    (hw : ∀ w ∈ ws, Finite w) (i j : Fl) (hi : Finite i) (hj : Finite j) (hij : val i ≤ val j)
    (h1 : Finite (accumulate f vs i)) (h2 : Finite (accumulate f ws j)) :
    val (accumulate f vs i) ≤ val (accumulate f ws j) := by
  induction h generalizing i j with
  | nil => exact hij
  | @cons v w vs ws hle hr ih =>
    have hvs : ∀ v ∈ vs, Finite v := fun v hm => hv v (.tail _ hm)
    have hws : ∀ w ∈ ws, Finite w := fun v hm => hw v (.tail _ hm)
    have f1 : Finite (add f i v) := by by_contra hc; exact acc_not_finite vs hvs _ hc h1
    have f2 : Finite (add f j w) := by by_contra hc; exact acc_not_finite ws hws _ hc h2
    refine ih hvs hws (add f i v) (add f j w) f1 f2 ?_ h1 h2
    rw [add_finite hi (hv v (.head _)) f1, add_finite hj (hw w (.head _)) f2]
    exact rq_mono hf (by linarith)

theorem num_finite {a : Fl} (h : Finite a) : num a = ((val a : Rat) : WithTop Rat) := by
  rcases a with s | s | ⟨s, x⟩
  · exact absurd h id
  · exact absurd h id
  · rfl

theorem num_div_nat {a : Fl} (h : Finite a) {n : Nat} (hn : n ≠ 0) : num (div f a (ofNat n)) = R f (val a / n) := by
  rcases a with s | s | ⟨s, x⟩
  · exact absurd h id
  · exact absurd h id
  · rw [div_nat _ _ _ hn, num_ofRat]; simp [val]

/-- **C123, order.** If no value of a container is above the one at the same place of another, neither is its average, if
the sums are not too big for the type. -/
theorem C123_mono (hf : f.Ok) {vs ws : List Fl} (hne : vs ≠ []) (h : List.Forall₂ (fun v w => val v ≤ val w) vs ws)
    (hv : ∀ v ∈ vs, Finite v) (hw : ∀ w ∈ ws, Finite w)
    (h1 : Finite (accumulate f vs (ofNat 0))) (h2 : Finite (accumulate f ws (ofNat 0))) :
    ∃ a b, average f vs = .ok a ∧ average f ws = .ok b ∧ num a ≤ num b := by
  have hlen := h.length_eq
  have hn : vs.length ≠ 0 := by simpa using hne
  have hne' : ws ≠ [] := by intro e; rw [e] at hlen; exact hn hlen
  unfold average
  rw [if_neg hne, if_neg hne', ← hlen]
  refine ⟨_, _, rfl, rfl, ?_⟩
  rw [num_div_nat h1 hn, num_div_nat h2 hn]
  exact R_mono hf (div_le_div_of_nonneg_right (acc_mono hf h hv hw _ _ trivial trivial (le_refl _) h1 h2) (by positivity))

example : average binary32 [.fin false 1, .fin true 3] = .ok (.fin true 1) ∧
    average binary32 [.fin false 2, .fin false 0] = .ok (.fin false 1) := by decide +kernel

/-- The sum of the values, without rounding. -/
def total (vs : List Fl) : Rat := (vs.map val).sum

theorem acc_exact (hf : f.Ok) (vs : List Fl) (hv : ∀ v ∈ vs, Finite v) (i : Fl) (hi : Finite i)
    (hp : ∀ k, Binary f.prec f.emin f.emax |val i + total (vs.take k)|) :
    Finite (accumulate f vs i) ∧ val (accumulate f vs i) = val i + total vs := by
  induction vs generalizing i with
  | nil => exact ⟨hi, by simp [accumulate, total]⟩
  | cons v vs ih =>
    have hvv := hv v (.head _)
    have hp1 := hp 1
    have e1 : val i + total ((v :: vs).take 1) = val i + val v := by simp [total]
    rw [e1] at hp1
    have hnum : num (add f i v) = ((val i + val v : Rat) : WithTop Rat) := by
      rcases i with s | s | ⟨s, x⟩
      · exact absurd hi id
      · exact absurd hi id
      rcases v with t | t | ⟨t, y⟩
      · exact absurd hvv id
      · exact absurd hvv id
      rw [num_add]; exact R_exact hf hp1
    obtain ⟨s, m, e, hval⟩ := finite_of_num hnum
    have hfin : Finite (add f i v) := by rw [e]; trivial
    have hval' : val (add f i v) = val i + val v := by rw [e]; exact hval
    have := ih (fun w hw => hv w (.tail _ hw)) (add f i v) hfin (fun k => by
      have := hp (k + 1)
      rw [List.take_succ_cons] at this
      rw [hval']
      simpa [total, add_assoc] using this)
    refine ⟨this.1, ?_⟩
    show val (accumulate f vs (add f i v)) = _
    rw [this.2, hval']
    simp [total, add_assoc]

/-- **C123, range.** If all sums of the first values are numbers of the type, for instance for whole numbers of a moderate
size, the average is finite, it is the mean rounded to the nearest number, and it lies between any bounds of the values. -/
theorem C123_range_partial (hf : f.Ok) (vs : List Fl) (hne : vs ≠ []) (hv : ∀ v ∈ vs, Finite v)
    (hp : ∀ k, Binary f.prec f.emin f.emax |total (vs.take k)|) {s t : Bool} {x y : Rat}
    (hl : OfType f (.fin s x)) (hu : OfType f (.fin t y)) (h : ∀ v ∈ vs, val (.fin s x) ≤ val v ∧ val v ≤ val (.fin t y)) :
    ∃ a, average f vs = .ok a ∧ num a = num (ofRat f false (total vs / vs.length)) ∧
      num (.fin s x) ≤ num a ∧ num a ≤ num (.fin t y) := by
  have hn : vs.length ≠ 0 := by simpa using hne
  have hnp : (0 : Rat) < vs.length := by exact_mod_cast Nat.pos_of_ne_zero hn
  have h0 : val (ofNat 0) = 0 := by simp [val, ofNat]
  obtain ⟨h1, h2⟩ := acc_exact hf vs hv (ofNat 0) trivial (fun k => by rw [h0, zero_add]; exact hp k)
  rw [h0, zero_add] at h2
  unfold average
  rw [if_neg hne]
  refine ⟨_, rfl, ?_, ?_, ?_⟩
  · rw [num_div_nat h1 hn, h2]; rfl
  · rw [num_div_nat h1 hn, h2, ← R_val hf hl]
    refine R_mono hf ?_
    rw [le_div_iff₀ hnp]
    have := List.card_nsmul_le_sum (vs.map val) (val (.fin s x)) (by
      intro r hr; obtain ⟨v, hv, rfl⟩ := List.mem_map.1 hr; exact (h v hv).1)
    rw [List.length_map, nsmul_eq_mul] at this
    unfold total; linarith
  · rw [num_div_nat h1 hn, h2, ← R_val hf hu]
    refine R_mono hf ?_
    rw [div_le_iff₀ hnp]
    have := List.sum_le_card_nsmul (vs.map val) (val (.fin t y)) (by
      intro r hr; obtain ⟨v, hv, rfl⟩ := List.mem_map.1 hr; exact (h v hv).2)
    rw [List.length_map, nsmul_eq_mul] at this
    unfold total; linarith

/-- Whole numbers meet the condition if the sum of their magnitudes is below two to the precision. -/
theorem whole_prefix (hf : f.Ok) (hmin : f.emin ≤ 0) (hmax : (f.prec : Int) ≤ f.emax) (ns : List Int) (h : (ns.map Int.natAbs).sum < 2 ^ f.prec) (k : Nat) :
    Binary f.prec f.emin f.emax |total ((ns.map fun n => Fl.fin (decide (n < 0)) n.natAbs).take k)| := by
  have hval : ∀ n : Int, val (Fl.fin (decide (n < 0)) n.natAbs) = n := by
    intro n
    by_cases hn : n < 0
    · rw [decide_eq_true hn]
      have : ((n.natAbs : Nat) : Int) = -n := by omega
      have h2 : ((n.natAbs : Nat) : Rat) = -n := by rw [← Int.cast_natCast, this]; push_cast; rfl
      simp only [val]; rw [h2]; simp
    · rw [decide_eq_false hn]
      have : ((n.natAbs : Nat) : Int) = n := by omega
      simp only [val]; rw [← Int.cast_natCast, this]; simp
  have e : total ((ns.map fun n => Fl.fin (decide (n < 0)) n.natAbs).take k) = (((ns.take k).sum : Int) : Rat) := by
    rw [← List.map_take]
    unfold total
    rw [List.map_map]
    induction ns.take k with
    | nil => simp
    | cons a as ih => rw [List.map_cons, List.sum_cons, List.sum_cons, ih]; push_cast; rw [Function.comp, hval]
  have hb : ∀ l : List Int, l.sum.natAbs ≤ (l.map Int.natAbs).sum := by
    intro l
    induction l with
    | nil => simp
    | cons a as ih => rw [List.sum_cons, List.map_cons, List.sum_cons]; omega
  have hk : ((ns.take k).map Int.natAbs).sum ≤ (ns.map Int.natAbs).sum := by
    conv_rhs => rw [← List.take_append_drop k ns, List.map_append, List.sum_append]
    omega
  rw [e]
  refine ⟨(ns.take k).sum.natAbs, 0, lt_of_le_of_lt ((hb _).trans hk) h, hmin, by omega, ?_⟩
  rw [← Int.cast_abs, Int.abs_eq_natAbs]
  simp

/-- **C123, whole numbers.** The average of whole numbers, the sum of whose magnitudes is below 2^24 for `float` and 2^53 for
`double`, is the mean rounded to the nearest number of the type, in any order of the numbers. -/
theorem C123_whole (hf : f.Ok) (hmin : f.emin ≤ 0) (hmax : (f.prec : Int) ≤ f.emax) (ns : List Int) (hne : ns ≠ [])
    (h : (ns.map Int.natAbs).sum < 2 ^ f.prec) :
    ∃ a, average f (ns.map fun n => Fl.fin (decide (n < 0)) n.natAbs) = .ok a ∧ num a = num (ofRat f false (ns.sum / ns.length)) := by
  set vs := ns.map fun n => Fl.fin (decide (n < 0)) n.natAbs with hvs
  have hv : ∀ v ∈ vs, Finite v := by
    intro v hv; obtain ⟨n, _, rfl⟩ := List.mem_map.1 hv; trivial
  have hne' : vs ≠ [] := by intro e; exact hne (List.map_eq_nil_iff.1 e)
  have hn : vs.length ≠ 0 := by simpa using hne'
  have h0 : val (ofNat 0) = 0 := by simp [val, ofNat]
  obtain ⟨h1, h2⟩ := acc_exact hf vs hv (ofNat 0) trivial (fun k => by rw [h0, zero_add]; exact whole_prefix hf hmin hmax ns h k)
  rw [h0, zero_add] at h2
  unfold average
  rw [if_neg hne']
  refine ⟨_, rfl, ?_⟩
  rw [num_div_nat h1 hn, h2, num_ofRat, show vs.length = ns.length from List.length_map _]
  congr 2
  rw [hvs]
  unfold total
  rw [List.map_map]
  clear_value vs
  clear h hne h1 h2 hn hne' hv hvs
  induction ns with
  | nil => simp
  | cons a as ih =>
    rw [List.map_cons, List.sum_cons, List.sum_cons, ih]
    push_cast
    congr 1
    simp only [Function.comp]
    by_cases hn : a < 0
    · rw [decide_eq_true hn]
      have h2 : ((a.natAbs : Nat) : Rat) = -a := by rw [← Int.cast_natCast, show ((a.natAbs : Nat) : Int) = -a by omega]; push_cast; rfl
      simp only [val]; rw [h2]; simp
    · rw [decide_eq_false hn]
      simp only [val]; rw [← Int.cast_natCast, show ((a.natAbs : Nat) : Int) = a by omega]; simp

example : binary32.emin ≤ 0 ∧ (binary32.prec : Int) ≤ binary32.emax ∧ binary64.emin ≤ 0 ∧ (binary64.prec : Int) ≤ binary64.emax ∧
    average binary64 (([5, -2, 7] : List Int).map fun n => Fl.fin (decide (n < 0)) n.natAbs) =
      .ok (.fin false (7505999378950827 / 2 ^ 51)) := by decide +kernel

/-- The number 0.1 of type `double`. -/
def tenth : Fl := .fin false (3602879701896397 / 2 ^ 55)

/-- **C123, range, violated.** The average of ten times 0.1 is smaller than 0.1; the average of the largest number and itself
is infinite. -/
theorem C123_range_violated :
    average binary64 (List.replicate 10 tenth) = .ok (.fin false (7205759403792793 / 2 ^ 56)) ∧
    (7205759403792793 / 2 ^ 56 : Rat) < 3602879701896397 / 2 ^ 55 ∧
    average binary32 [.fin false (maxVal binary32), .fin false (maxVal binary32)] = .ok (.inf false) := by decide +kernel

/-- **C123, order, violated.** The sum of the same values depends on their order. -/
theorem C123_order_violated :
    accumulate binary64 [.fin false 9007199254740992, .fin false 1, .fin true 9007199254740992] (ofNat 0) = .fin false 0 ∧
    accumulate binary64 [.fin false 9007199254740992, .fin true 9007199254740992, .fin false 1] (ofNat 0) = .fin false 1 := by
  decide +kernel

/-- **C123, no values.** The average of nothing is an error. -/
theorem C123_empty (f : Fmt) : average f [] = .err := rfl

end Ieee
end Xo
