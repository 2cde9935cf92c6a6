import Verif.Model.WriteFunction
import Verif.Lemmas.Ieee

/-!
C139: `write_function` writes the values of a function at the numbers min, min + interval, ... up to max.
-/
namespace Xo
namespace Ieee
open Num (Fl Fmt two_pos' two_mono binary32 binary64)
open Spec
open Spec (Finite)

variable {f : Fmt}

/-! ## What is written -/

/-- **C139, the table.** Each line belongs to one value of `x`: the first is `min`, each other one is the one before plus the interval, and `y` is the
value of the function there. All of them pass the comparison with `max`, and the next one does not. -/
theorem C139_table (func : Fl → Fl) (mx h : Fl) : ∀ (n : Nat) (mn : Fl) (l : List (Fl × Fl)), samples f func mx h n mn = some l →
    (∀ i (hi : i < l.length), l[i] = ((fun x => add f x h)^[i] mn, func ((fun x => add f x h)^[i] mn)) ∧ lessEq f l[i].1 mx = true) ∧
    lessEq f ((fun x => add f x h)^[l.length] mn) mx = false := by
  intro n
  induction n with
  | zero => intro mn l h; cases h
  | succ n ih =>
    intro mn l hl
    rw [samples] at hl
    split at hl
    · next hc =>
      cases hs : samples f func mx h n (add f mn h) with
      | none => rw [hs] at hl; cases hl
      | some l' =>
        rw [hs] at hl
        simp only [Option.map_some, Option.some.injEq] at hl
        subst hl
        obtain ⟨h1, h2⟩ := ih _ _ hs
        refine ⟨fun i hi => ?_, ?_⟩
        · cases i with
          | zero => exact ⟨rfl, hc⟩
          | succ i => exact h1 i (by simpa using hi)
        · exact h2
    · next hc =>
      simp only [Option.some.injEq] at hl
      subst hl
      exact ⟨fun i hi => absurd hi (by simp), by simpa using hc⟩

/-- **C139, the file.** The lines in order; or an exception if the file cannot be created. -/
theorem C139_file (mn mx : Fl) (func : Fl → Fl) (h : Fl) (n : Nat) :
    writeFunction f false mn mx func h n = some .err ∧
    ∀ l, samples f func mx h n mn = some l → writeFunction f true mn mx func h n = some (.ok (l.flatMap fun p =>
      Num.toStr p.1 ++ "\t".toList ++ Num.toStr p.2 ++ "\n".toList)) := by
  refine ⟨rfl, fun l hl => ?_⟩
  simp only [writeFunction, if_true, hl, Option.map_some]
  congr 3
  funext p
  simp [sampleLine]

/-! ## The loop ends -/

theorem val_abs (s : Bool) (x : Rat) : ∃ m, abs (.fin s x) = .fin (if lt (.fin s x) (ofNat 0) then !s else s) x ∧ m = x ∧
    val (abs (.fin s x)) = |val (.fin s x)| := by
  refine ⟨x, ?_, rfl, ?_⟩
  · unfold abs
    split <;> rfl
  · have e0 : val (ofNat 0) = 0 := by simp [val, ofNat]
    unfold abs
    split
    · next h =>
      have h : val (.fin s x) < val (ofNat 0) := by simpa [lt, ofNat] using h
      rw [e0] at h
      rw [num_neg (a := .fin s x), abs_of_neg h]
    · next h =>
      have h : ¬ val (.fin s x) < val (ofNat 0) := by simpa [lt, ofNat] using h
      rw [e0] at h
      rw [abs_of_nonneg (not_lt.1 h)]

theorem rq_two (hf : f.Ok) {k : Int} (hk : f.emin ≤ k) : rq f (2 ^ k) = 2 ^ k := by
  have hp := hf.prec
  have e : (2 : Rat) ^ k = ((1 : Int) : Rat) * 2 ^ k := by simp
  rw [e, rq_mul (by rw [abs_one]; exact one_lt_pow₀ (by norm_num) (by omega)) hk]

/-- Far beyond `max` the comparison fails. -/
theorem beyond (hf : f.Ok) {k : Int} (hk1 : f.emin + f.prec ≤ k) (hk2 : k + 1 < f.emax) {s t : Bool} {a b : Rat}
    (h1 : 2 ^ k ≤ val (.fin s a)) (h2 : val (.fin s a) ≤ 2 ^ (k + 1)) (h3 : val (.fin t b) ≤ 2 ^ (k - 1)) :
    lessEq f (.fin s a) (.fin t b) = false := by
  have hp := hf.prec
  have hkp := two_pos' k
  have ek : (2 : Rat) ^ k = 2 * 2 ^ (k - 1) := by
    rw [← zpow_one_add₀ (by norm_num)]; congr 1; omega
  have hkp' := two_pos' (k - 1)
  unfold lessEq
  rw [Bool.or_eq_false_iff]
  constructor
  · simp only [lt, decide_eq_false_iff_not, not_lt]
    linarith
  · unfold equal
    obtain ⟨m, e1, rfl, e2⟩ := val_abs s a
    -- the tolerance
    have ht : val (abs (.fin s m)) * val (ample f) ≤ 2 ^ (k - 2) := by
      rw [e2, abs_of_nonneg (by linarith)]
      have : val (ample f) = 2 ^ (4 - (f.prec : Int)) := by simp [val, ample]
      rw [this]
      calc val (.fin s m) * 2 ^ (4 - (f.prec : Int)) ≤ 2 ^ (k + 1) * 2 ^ (4 - (f.prec : Int)) :=
            mul_le_mul_of_nonneg_right h2 (two_pos' _).le
        _ = 2 ^ (k + 1 + (4 - (f.prec : Int))) := by rw [← zpow_add₀ (by norm_num)]
        _ ≤ 2 ^ (k - 2) := two_mono (by omega)
    have ht0 : 0 ≤ val (abs (.fin s m)) * val (ample f) := by
      rw [e2]
      refine mul_nonneg (abs_nonneg _) ?_
      simp only [val, ample]
      exact (two_pos' _).le
    have hr := rq_mono hf ht
    rw [rq_two hf (by omega)] at hr
    have hlt : (2 : Rat) ^ (k - 2) < 2 ^ f.emax := zpow_lt_zpow_right₀ (by norm_num) (by omega)
    have e3 : mul f (abs (.fin s m)) (ample f) = ofRat f ((if lt (.fin s m) (ofNat 0) then !s else s) != false)
        (val (abs (.fin s m)) * val (ample f)) := by
      rw [e1]; rfl
    obtain ⟨s2, m2, e4, e5⟩ := ofRat_finite (f := f) (z := (if lt (.fin s m) (ofNat 0) then !s else s) != false)
      (x := val (abs (.fin s m)) * val (ample f)) (by rw [abs_of_nonneg (rq_nonneg ht0)]; linarith)
    rw [e3, e4]
    -- the difference
    have hd : (2 : Rat) ^ (k - 1) ≤ val (.fin s m) - val (.fin t b) := by linarith
    have hrd := rq_mono hf hd
    rw [rq_two hf (by omega)] at hrd
    have e6 : sub f (.fin s m) (.fin t b) = ofRat f (s && !t) (val (.fin s m) - val (.fin t b)) := by
      show ofRat f (s && !t) (val (.fin s m) + val (.fin (!t) b)) = _
      rw [show val (.fin (!t) b) = -val (.fin t b) from num_neg (a := .fin t b) t b, ← sub_eq_add_neg]
    rw [e6]
    rcases ofRat_cases (f := f) (s && !t) (val (.fin s m) - val (.fin t b)) with h' | h' | ⟨-, s3, m3, h', h''⟩
    · rw [h'.2]; rfl
    · have := two_pos' f.emax
      linarith [h'.1]
    · rw [h']
      obtain ⟨m', -, rfl, e8⟩ := val_abs s3 m3
      obtain ⟨s4, m4, e9⟩ : ∃ s4 m4, abs (.fin s3 m') = .fin s4 m4 := by
        unfold abs; split
        · exact ⟨_, _, rfl⟩
        · exact ⟨_, _, rfl⟩
      rw [e9] at e8 ⊢
      have e10 : (2 : Rat) ^ (k - 1) ≤ val (.fin s4 m4) := by
        rw [e8, h'', abs_of_nonneg (by linarith)]; exact hrd
      have e11 : (2 : Rat) ^ (k - 2) < 2 ^ (k - 1) := zpow_lt_zpow_right₀ (by norm_num) (by omega)
      have e12 : val (.fin s2 m2) < val (.fin s4 m4) := by rw [e5]; linarith
      unfold le
      rw [Bool.or_eq_false_iff]
      simp only [lt, eq, decide_eq_false_iff_not, not_lt]
      exact ⟨e12.le, e12.ne'⟩

/-- One step: the next number is in the next cell of the grid, or further on. -/
theorem step_up (hf : f.Ok) {k : Int} (hk1 : f.emin + f.prec ≤ k) (hk2 : k + 1 < f.emax) {s t : Bool} {a b : Rat}
    (h1 : -2 ^ k ≤ val (.fin s a)) (h2 : val (.fin s a) < 2 ^ k) (h3 : 2 ^ (k - f.prec) ≤ val (.fin t b)) (h4 : val (.fin t b) ≤ 2 ^ k) :
    ∃ s' a', add f (.fin s a) (.fin t b) = .fin s' a' ∧ val (.fin s a) < val (.fin s' a') ∧ val (.fin s' a') ≤ 2 ^ (k + 1) ∧
      ⌊val (.fin s a) / 2 ^ (k - (f.prec : Int))⌋ + 1 ≤ ⌊val (.fin s' a') / 2 ^ (k - (f.prec : Int))⌋ := by
  have hu := two_pos' (k - (f.prec : Int))
  have ek : (2 : Rat) ^ k = 2 ^ f.prec * 2 ^ (k - (f.prec : Int)) := by
    rw [← zpow_natCast, ← zpow_add₀ (by norm_num)]; congr 1; omega
  set u : Rat := 2 ^ (k - (f.prec : Int)) with hu'
  set x := val (.fin s a) with hx
  set m := ⌊x / u⌋ with hm
  have hm1 : (m : Rat) * u ≤ x := by
    have := Int.floor_le (x / u)
    rwa [le_div_iff₀ hu] at this
  have hm2 : x < (m + 1) * u := by
    have := Int.lt_floor_add_one (x / u)
    rwa [div_lt_iff₀ hu] at this
  have hlow : -(2 ^ f.prec : Int) ≤ m := by
    rw [hm, Int.le_floor, le_div_iff₀ hu]
    push_cast
    linarith
  have hhigh : m + 1 ≤ (2 ^ f.prec : Int) := by
    have : m < (2 ^ f.prec : Int) := by
      rw [hm, Int.floor_lt, div_lt_iff₀ hu]
      push_cast
      linarith
    omega
  have hex : rq f (((m + 1 : Int) : Rat) * u) = ((m + 1 : Int) : Rat) * u := by
    rcases lt_or_eq_of_le hhigh with h | h
    · exact rq_mul (by rw [abs_lt]; constructor <;> omega) (by omega)
    · rw [h]
      push_cast
      rw [← ek]
      exact rq_two hf (by omega)
  have hge := rq_mono hf (show ((m + 1 : Int) : Rat) * u ≤ x + val (.fin t b) by push_cast; linarith)
  rw [hex] at hge
  have hle := rq_mono hf (show x + val (.fin t b) ≤ 2 ^ (k + 1) by
    rw [zpow_add₀ (by norm_num), zpow_one]; linarith)
  rw [rq_two hf (by omega)] at hle
  have hlt : (2 : Rat) ^ (k + 1) < 2 ^ f.emax := zpow_lt_zpow_right₀ (by norm_num) hk2
  have hneg : -(2 : Rat) ^ k ≤ ((m + 1 : Int) : Rat) * u := by push_cast; linarith
  have hkk : (2 : Rat) ^ k ≤ 2 ^ (k + 1) := two_mono (by omega)
  obtain ⟨s', a', e1, e2⟩ := ofRat_finite (f := f) (z := s && t) (x := x + val (.fin t b)) (by
    rw [abs_lt]; constructor <;> linarith)
  refine ⟨s', a', e1, ?_, ?_, ?_⟩
  · rw [e2]; push_cast at hge; linarith
  · rw [e2]; exact hle
  · rw [e2, Int.le_floor, le_div_iff₀ hu]; exact hge

theorem ends_aux (hf : f.Ok) (func : Fl → Fl) {k : Int} (hk1 : f.emin + f.prec ≤ k) (hk2 : k + 1 < f.emax) {t r : Bool} {b c : Rat}
    (h1 : val (.fin t b) ≤ 2 ^ (k - 1)) (h2 : 2 ^ (k - f.prec) ≤ val (.fin r c)) (h3 : val (.fin r c) ≤ 2 ^ k) :
    ∀ (n : Nat) (s : Bool) (a : Rat), -2 ^ k ≤ val (.fin s a) → val (.fin s a) ≤ 2 ^ (k + 1) → 1 ≤ n →
      (val (.fin s a) < 2 ^ k → (2 ^ f.prec : Int) - ⌊val (.fin s a) / 2 ^ (k - (f.prec : Int))⌋ + 1 ≤ n) →
      ∃ l, samples f func (.fin t b) (.fin r c) n (.fin s a) = some l ∧
        (∀ p ∈ l, ∃ s' a', p.1 = .fin s' a' ∧ val (.fin s a) ≤ val (.fin s' a')) ∧
        (l.map Prod.fst).Pairwise (fun x y => val x < val y) := by
  intro n
  induction n with
  | zero => intro s a _ _ h; omega
  | succ n ih =>
    intro s a ha1 ha2 _ hn
    rw [samples]
    rcases lt_or_ge (val (.fin s a)) (2 ^ k) with hb | hb
    · split
      · obtain ⟨s', a', e1, e2, e3, e4⟩ := step_up hf hk1 hk2 ha1 hb h2 h3
        have hn := hn hb
        have hu := two_pos' (k - (f.prec : Int))
        have hm : ⌊val (.fin s a) / 2 ^ (k - (f.prec : Int))⌋ < (2 ^ f.prec : Int) := by
          rw [Int.floor_lt, div_lt_iff₀ hu]
          push_cast
          rw [← zpow_natCast, ← zpow_add₀ (by norm_num)]
          rw [show (f.prec : Int) + (k - f.prec) = k by omega]
          exact hb
        obtain ⟨l, hl1, hl2, hl3⟩ := ih s' a' (by linarith) e3 (by omega) (fun _ => by push_cast at hn ⊢; omega)
        refine ⟨(.fin s a, func (.fin s a)) :: l, by rw [e1, hl1]; rfl, ?_, ?_⟩
        · intro p hp
          rcases List.mem_cons.1 hp with rfl | hp
          · exact ⟨s, a, rfl, le_rfl⟩
          · obtain ⟨s2, a2, h5, h6⟩ := hl2 p hp
            exact ⟨s2, a2, h5, by linarith⟩
        · rw [List.map_cons, List.pairwise_cons]
          refine ⟨fun y hy => ?_, hl3⟩
          obtain ⟨p, hp, rfl⟩ := List.mem_map.1 hy
          obtain ⟨s2, a2, h5, h6⟩ := hl2 p hp
          rw [h5]
          show val (.fin s a) < _
          linarith
      · exact ⟨[], rfl, by simp, by simp⟩
    · rw [beyond hf hk1 hk2 hb ha2 h1]
      exact ⟨[], rfl, by simp, by simp⟩

/-- **C139, the loop ends (partial).** Let `2 ^ k` be at least twice `max` and at least the distance of `min` from zero. If the interval is not below the
distance of neighbouring numbers of that size, the loop ends, and the values of `x` are finite and rise strictly. -/
theorem C139_ends_partial (hf : f.Ok) (func : Fl → Fl) (k : Int) (hk1 : f.emin + f.prec ≤ k) (hk2 : k + 1 < f.emax) (mn mx h : Fl)
    (hmn : Finite mn) (hmx : Finite mx) (hh : Finite h) (h1 : |val mn| ≤ 2 ^ k) (h2 : val mx ≤ 2 ^ (k - 1))
    (h3 : 2 ^ (k - f.prec) ≤ val h) (h4 : val h ≤ 2 ^ k) :
    ∃ l, samples f func mx h (2 ^ (f.prec + 1) + 1) mn = some l ∧
      (∀ p ∈ l, Finite p.1 ∧ val mn ≤ val p.1) ∧ (l.map Prod.fst).Pairwise (fun x y => val x < val y) := by
  rcases mn with s | s | ⟨s, a⟩
  · exact absurd hmn id
  · exact absurd hmn id
  rcases mx with t | t | ⟨t, b⟩
  · exact absurd hmx id
  · exact absurd hmx id
  rcases h with r | r | ⟨r, c⟩
  · exact absurd hh id
  · exact absurd hh id
  obtain ⟨h5, h6⟩ := abs_le.1 h1
  have hu := two_pos' (k - (f.prec : Int))
  have hkk : (2 : Rat) ^ k ≤ 2 ^ (k + 1) := two_mono (by omega)
  obtain ⟨l, e1, e2, e3⟩ := ends_aux hf func hk1 hk2 h2 h3 h4 (2 ^ (f.prec + 1) + 1) s a h5 (by linarith) (Nat.le_add_left _ _) (fun _ => by
    have : -(2 ^ f.prec : Int) ≤ ⌊val (.fin s a) / 2 ^ (k - (f.prec : Int))⌋ := by
      rw [Int.le_floor, le_div_iff₀ hu]
      push_cast
      rw [neg_mul, ← zpow_natCast, ← zpow_add₀ (by norm_num)]
      rw [show (f.prec : Int) + (k - f.prec) = k by omega]
      exact h5
    push_cast
    rw [pow_succ]
    omega)
  exact ⟨l, e1, fun p hp => by obtain ⟨s', a', h7, h8⟩ := e2 p hp; rw [h7]; exact ⟨trivial, h8⟩, e3⟩

/-- Non-vacuity: a `float` from -1 to 5 with the default interval. -/
example : ∃ l, samples binary32 id (ofNat 5) (defaultInterval binary32) (2 ^ 25 + 1) (.fin true 1) = some l :=
  (C139_ends_partial Num.binary32_ok id 4 (by decide) (by decide) (.fin true 1) (ofNat 5) (defaultInterval binary32) trivial trivial
    (show Finite (defaultInterval binary32) by
      rw [show defaultInterval binary32 = .fin false (5368709 / 536870912) by decide +kernel]; trivial) (by decide +kernel) (by decide +kernel) (by decide +kernel) (by decide +kernel)).imp fun _ h => h.1

/-! ## Exact steps -/

/-- The comparison of two whole multiples of a unit is exact when both are small enough. -/
theorem lessEq_grid (hf : f.Ok) {e : Int} (he1 : f.emin + f.prec ≤ e + 4) (he2 : e + f.prec ≤ f.emax) {s t : Bool} {a b : Rat} {m n : Int}
    (ha : val (.fin s a) = m * 2 ^ e) (hb : val (.fin t b) = n * 2 ^ e) (hm : |m| < 2 ^ (f.prec - 4)) (hn : |n| < 2 ^ (f.prec - 4)) :
    lessEq f (.fin s a) (.fin t b) = decide (m ≤ n) := by
  have hp := hf.prec
  have hu := two_pos' e
  have hpow : (2 : Int) ^ f.prec = 16 * 2 ^ (f.prec - 4) := by
    rw [show (16 : Int) = 2 ^ 4 by norm_num, ← pow_add]; congr 1; omega
  have hpow0 : (0 : Int) < 2 ^ (f.prec - 4) := by positivity
  obtain ⟨a', e1, rfl, e2⟩ := val_abs s a
  have hlt : lt (.fin s a') (.fin t b) = decide (m < n) := by
    simp only [lt, ha, hb]
    rw [decide_eq_decide, mul_lt_mul_iff_of_pos_right hu]
    exact_mod_cast Iff.rfl
  -- the difference
  have hd : |m - n| < 2 ^ f.prec := by
    rw [abs_lt] at hm hn ⊢
    constructor <;> omega
  have e6 : sub f (.fin s a') (.fin t b) = ofRat f (s && !t) (((m - n : Int) : Rat) * 2 ^ e) := by
    show ofRat f (s && !t) (val (.fin s a') + val (.fin (!t) b)) = _
    rw [show val (.fin (!t) b) = -val (.fin t b) from num_neg (a := .fin t b) t b, ha, hb]
    congr 1
    push_cast
    ring
  have hbound : ∀ c : Int, |c| < 2 ^ f.prec → |(c : Rat) * 2 ^ e| < 2 ^ f.emax := by
    intro c hc
    rw [abs_mul, abs_of_pos hu]
    have h4 : |(c : Rat)| < 2 ^ f.prec := by exact_mod_cast hc
    calc |(c : Rat)| * 2 ^ e < 2 ^ f.prec * 2 ^ e := mul_lt_mul_of_pos_right h4 hu
      _ = 2 ^ ((f.prec : Int) + e) := by rw [zpow_add₀ (by norm_num), zpow_natCast]
      _ ≤ 2 ^ f.emax := two_mono (by omega)
  have hrd : rq f (((m - n : Int) : Rat) * 2 ^ e) = ((m - n : Int) : Rat) * 2 ^ e := rq_mul hd (by omega)
  obtain ⟨s3, m3, e7, e8⟩ := ofRat_finite (f := f) (z := s && !t) (x := ((m - n : Int) : Rat) * 2 ^ e) (by
    rw [hrd]; exact hbound _ hd)
  rw [hrd] at e8
  obtain ⟨m3', -, rfl, e9⟩ := val_abs s3 m3
  obtain ⟨s4, m4, e10⟩ : ∃ s4 m4, abs (.fin s3 m3') = .fin s4 m4 := by
    unfold abs; split
    · exact ⟨_, _, rfl⟩
    · exact ⟨_, _, rfl⟩
  -- the tolerance
  have et : val (abs (.fin s a')) * val (ample f) = ((|m| : Int) : Rat) * 2 ^ (e + (4 - (f.prec : Int))) := by
    have : val (ample f) = 2 ^ (4 - (f.prec : Int)) := by simp [val, ample]
    rw [this, e2, ha, abs_mul, abs_of_pos hu, zpow_add₀ (by norm_num), Int.cast_abs]
    ring
  have hrt : rq f (((|m| : Int) : Rat) * 2 ^ (e + (4 - (f.prec : Int)))) = ((|m| : Int) : Rat) * 2 ^ (e + (4 - (f.prec : Int))) :=
    rq_mul (by rw [abs_abs]; omega) (by omega)
  have htl : ((|m| : Int) : Rat) * 2 ^ (e + (4 - (f.prec : Int))) < 2 ^ e := by
    have h1 : ((|m| : Int) : Rat) < 2 ^ (f.prec - 4) := by exact_mod_cast hm
    calc ((|m| : Int) : Rat) * 2 ^ (e + (4 - (f.prec : Int))) < 2 ^ (f.prec - 4) * 2 ^ (e + (4 - (f.prec : Int))) :=
          mul_lt_mul_of_pos_right h1 (two_pos' _)
      _ = 2 ^ e := by
        rw [← zpow_natCast, ← zpow_add₀ (by norm_num)]
        congr 1
        omega
  have ht0 : 0 ≤ ((|m| : Int) : Rat) * 2 ^ (e + (4 - (f.prec : Int))) :=
    mul_nonneg (by exact_mod_cast abs_nonneg m) (two_pos' _).le
  have hemax : (2 : Rat) ^ e ≤ 2 ^ f.emax := two_mono (by omega)
  have e3 : mul f (abs (.fin s a')) (ample f) = ofRat f ((if lt (.fin s a') (ofNat 0) then !s else s) != false)
      (val (abs (.fin s a')) * val (ample f)) := by
    rw [e1]; rfl
  obtain ⟨s2, m2, e4, e5⟩ := ofRat_finite (f := f) (z := (if lt (.fin s a') (ofNat 0) then !s else s) != false)
    (x := val (abs (.fin s a')) * val (ample f)) (by rw [et, hrt, abs_of_nonneg ht0]; linarith)
  rw [et, hrt] at e5
  unfold lessEq equal
  rw [hlt, e6, e7, e10, e3, e4]
  rw [e10, e8] at e9
  have hle : le (.fin s4 m4) (.fin s2 m2) = decide (m = n) := by
    unfold le
    simp only [lt, eq]
    rw [e9, e5]
    by_cases hc : m = n
    · subst hc
      simp only [sub_self, Int.cast_zero, zero_mul, abs_zero, decide_true]
      rcases eq_or_lt_of_le ht0 with h | h
      · rw [← h]; simp
      · rw [decide_eq_true h]; rfl
    · have h1 : (1 : Rat) ≤ |((m - n : Int) : Rat)| := by
        have : 1 ≤ |m - n| := Int.one_le_abs (sub_ne_zero.2 hc)
        exact_mod_cast this
      have h2 : (2 : Rat) ^ e ≤ |((m - n : Int) : Rat) * 2 ^ e| := by
        rw [abs_mul, abs_of_pos hu]
        nlinarith
      have h3 : ¬ |((m - n : Int) : Rat) * 2 ^ e| < ((|m| : Int) : Rat) * 2 ^ (e + (4 - (f.prec : Int))) := by linarith
      have h4 : ¬ |((m - n : Int) : Rat) * 2 ^ e| = ((|m| : Int) : Rat) * 2 ^ (e + (4 - (f.prec : Int))) := by linarith
      simp only [h3, h4, hc, decide_false, Bool.or_self]
  rw [hle, ← Bool.decide_or, decide_eq_decide]
  omega

/-- **C139, exact steps (partial).** If `min`, `max` and the interval are whole multiples of one unit and small enough, the values of `x` are exactly
`min + i * interval` for all `i` for which this is not above `max`; `max` itself is among them if it is met exactly. -/
theorem C139_exact_partial (hf : f.Ok) (func : Fl → Fl) (e : Int) (he1 : f.emin + f.prec ≤ e + 4) (he2 : e + f.prec ≤ f.emax) (m n d : Int)
    (hd : 0 < d) (mn mx h : Fl) (hmn : num mn = ((m * 2 ^ e : Rat) : WithTop Rat)) (hmx : num mx = ((n * 2 ^ e : Rat) : WithTop Rat))
    (hh : num h = ((d * 2 ^ e : Rat) : WithTop Rat)) (h1 : |m| < 2 ^ (f.prec - 4)) (h2 : |n| + d < 2 ^ (f.prec - 4)) :
    ∃ l, samples f func mx h (((n - m) / d + 1).toNat + 1) mn = some l ∧ l.length = ((n - m) / d + 1).toNat ∧
      ∀ i (hi : i < l.length), num l[i].1 = (((m + i * d : Int) * 2 ^ e : Rat) : WithTop Rat) := by
  obtain ⟨t, b, rfl, eb⟩ := finite_of_num hmx
  obtain ⟨r, c, rfl, ec⟩ := finite_of_num hh
  have hp := hf.prec
  have hu := two_pos' e
  have hpow : (2 : Int) ^ f.prec = 16 * 2 ^ (f.prec - 4) := by
    rw [show (16 : Int) = 2 ^ 4 by norm_num, ← pow_add]; congr 1; omega
  have hpow0 : (0 : Int) < 2 ^ (f.prec - 4) := by positivity
  have hn : |n| < 2 ^ (f.prec - 4) := by omega
  have key : ∀ (k : Nat) (mn : Fl) (m : Int), num mn = ((m * 2 ^ e : Rat) : WithTop Rat) → |m| < 2 ^ (f.prec - 4) →
      ((n - m) / d + 1).toNat ≤ k →
      ∃ l, samples f func (.fin t b) (.fin r c) (k + 1) mn = some l ∧ l.length = ((n - m) / d + 1).toNat ∧
        ∀ i (hi : i < l.length), num l[i].1 = (((m + i * d : Int) * 2 ^ e : Rat) : WithTop Rat) := by
    intro k
    induction k with
    | zero =>
      intro mn m hm hm1 hk
      obtain ⟨s, a, rfl, ea⟩ := finite_of_num hm
      have hneg : ¬ m ≤ n := by
        intro hle
        have : 0 ≤ (n - m) / d := Int.ediv_nonneg (by omega) hd.le
        omega
      refine ⟨[], ?_, ?_, by simp⟩
      · rw [samples, lessEq_grid hf he1 he2 ea eb hm1 hn, decide_eq_false hneg]
        rfl
      · simp only [List.length_nil]; omega
    | succ k ih =>
      intro mn m hm hm1 hk
      obtain ⟨s, a, rfl, ea⟩ := finite_of_num hm
      rw [samples, lessEq_grid hf he1 he2 ea eb hm1 hn]
      by_cases hc : m ≤ n
      · rw [if_pos (by simpa using hc)]
        have hq : (n - (m + d)) / d = (n - m) / d - 1 := by
          rw [show n - (m + d) = n - m - 1 * d by ring, Int.sub_mul_ediv_right _ _ (by omega)]
        have h0 : 0 ≤ (n - m) / d := Int.ediv_nonneg (by omega) hd.le
        have hmd : |m + d| < 2 ^ (f.prec - 4) := by
          rw [abs_lt] at hm1 ⊢
          have := le_abs_self n
          constructor <;> omega
        have hadd : num (add f (.fin s a) (.fin r c)) = (((m + d : Int) * 2 ^ e : Rat) : WithTop Rat) := by
          rw [num_add, ea, ec, show (m : Rat) * 2 ^ e + d * 2 ^ e = ((m + d : Int) : Rat) * 2 ^ e by push_cast; ring]
          refine R_exact hf ⟨(m + d).natAbs, e, ?_, by omega, by omega, ?_⟩
          · have : (((m + d).natAbs : Nat) : Int) < (2 : Int) ^ f.prec := by rw [← Int.abs_eq_natAbs]; omega
            exact_mod_cast this
          · rw [abs_mul, abs_of_pos hu, ← Int.cast_abs, Int.abs_eq_natAbs]
            simp
        obtain ⟨l, hl1, hl2, hl3⟩ := ih (add f (.fin s a) (.fin r c)) (m + d) hadd hmd (by rw [hq]; omega)
        refine ⟨(.fin s a, func (.fin s a)) :: l, by rw [hl1]; rfl, ?_, ?_⟩
        · rw [List.length_cons, hl2, hq]; omega
        · intro i hi
          cases i with
          | zero => simpa using hm
          | succ i =>
            rw [List.getElem_cons_succ, hl3 i (by simpa using hi)]
            rw [show m + d + (i : Int) * d = m + ((i + 1 : Nat) : Int) * d by push_cast; ring]
      · rw [if_neg (by simpa using hc)]
        refine ⟨[], rfl, ?_, by simp⟩
        have : (n - m) / d < 0 := Int.ediv_neg_of_neg_of_pos (by omega) hd
        simp only [List.length_nil]; omega
  exact key _ mn m hmn h1 le_rfl

/-- Non-vacuity: from -1 to 1 in steps of a quarter there are nine values. -/
example : ∃ l, samples binary32 id (ofNat 1) (.fin false (1 / 4)) 10 (.fin true 1) = some l ∧ l.length = 9 :=
  (C139_exact_partial Num.binary32_ok id (-2) (by decide) (by decide) (-4) 4 1 (by decide) (.fin true 1) (ofNat 1) (.fin false (1 / 4))
    (by simp [num]; norm_num) (by simp [num, ofNat]; norm_num) (by simp [num]; norm_num) (by decide) (by decide)).imp fun _ h => ⟨h.1, h.2.1⟩

/-! ## What goes wrong -/

/-- If the interval is lost when it is added, the loop does not end. -/
theorem stuck {func : Fl → Fl} {mx h x : Fl} (h1 : lessEq f x mx = true) (h2 : add f x h = x) : ∀ n, samples f func mx h n x = none := by
  intro n
  induction n with
  | zero => rfl
  | succ n ih => rw [samples, if_pos h1, h2, ih]; rfl

/-- **C139, endless files (violated).** The loop does not end, and the file grows, for each interval of zero with `min` below `max`; for a `float` that is
too big for the interval, as from 16777216 on with interval 1; and when the sum is too big for the type, because the tolerance for infinity is infinite. -/
theorem C139_endless_violated (func : Fl → Fl) :
    (∀ (hf : f.Ok) (mn mx : Fl) (n : Nat), OfType f mn → Finite mn → lt mn mx = true → samples f func mx (ofNat 0) n mn = none) ∧
    (∀ n, samples binary32 func (ofNat 16777300) (ofNat 1) n (ofNat 16777216) = none) ∧
    (∀ n, samples binary32 func (.fin false (maxVal binary32)) (.fin false (maxVal binary32)) n (ofNat 0) = none) := by
  refine ⟨?_, stuck (by decide +kernel) (by decide +kernel), ?_⟩
  · intro hf mn mx n ht hfin hlt
    have key : ∀ (n : Nat) (x : Fl), Finite x → OfType f x → lt x mx = true → samples f func mx (ofNat 0) n x = none := by
      intro n
      induction n with
      | zero => intro x _ _ _; rfl
      | succ n ih =>
        intro x hx hxt hxl
        rcases x with s | s | ⟨s, a⟩
        · exact absurd hx id
        · exact absurd hx id
        have h0 : val (.fin s a) + val (.fin false ((0 : Nat) : Rat)) = val (.fin s a) := by simp [val]
        obtain ⟨s', a', e1, e2⟩ := ofRat_finite (f := f) (z := s && false) (x := val (.fin s a) + val (.fin false ((0 : Nat) : Rat))) (by
          rw [h0, rq_val hxt]; exact val_lt hxt)
        rw [h0, rq_val hxt] at e2
        have e3 : add f (.fin s a) (ofNat 0) = .fin s' a' := e1
        have e4 : OfType f (.fin s' a') := by rw [← e3]; exact add_ofType hf _ _
        have e5 : lt (.fin s' a') mx = true := by
          rcases mx with t | t | ⟨t, b⟩
          · exact hxl
          · exact hxl
          · simp only [lt, decide_eq_true_eq] at hxl ⊢
            rw [e2]; exact hxl
        rw [samples, if_pos (by unfold lessEq; rw [hxl]; rfl), e3, ih (.fin s' a') trivial e4 e5]
        rfl
    exact key n mn hfin ht hlt
  · intro n
    have e1 : lessEq binary32 (ofNat 0) (.fin false (maxVal binary32)) = true := by decide +kernel
    have e2 : add binary32 (ofNat 0) (.fin false (maxVal binary32)) = .fin false (maxVal binary32) := by decide +kernel
    have e3 : lessEq binary32 (.fin false (maxVal binary32)) (.fin false (maxVal binary32)) = true := by decide +kernel
    have e4 : add binary32 (.fin false (maxVal binary32)) (.fin false (maxVal binary32)) = .inf false := by decide +kernel
    have e5 := stuck (f := binary32) (func := func) (mx := .fin false (maxVal binary32)) (h := .fin false (maxVal binary32)) (x := .inf false)
      (by decide +kernel) (by decide +kernel)
    rcases n with _ | _ | n
    · rfl
    · rw [samples, if_pos e1]; rfl
    · rw [samples, if_pos e1, e2, samples, if_pos e3, e4, e5 n]
      rfl

/-- **C139, the last value (violated).** With the default interval the values of a `float` from 0 to 5 end before 4.991 instead of at 5; with the interval 1
they go beyond `max` from 2^20 on; and the texts of neighbouring values can be the same. -/
theorem C139_last_violated :
    ((samples binary32 id (ofNat 5) (defaultInterval binary32) 501 (ofNat 0)).map fun l =>
      (l.length, l.all fun p => lt p.1 (.fin false (4991 / 1000)))) = some (500, true) ∧
    (samples binary32 id (ofNat 1048576) (ofNat 1) 5 (ofNat 1048576)).map (·.map Prod.fst) = some [ofNat 1048576, ofNat 1048577] ∧
    writeFunction binary32 true (ofNat 1000) (.fin false (1000 + 1 / 512)) (fun _ => ofNat 7) (.fin false (1 / 1024)) 10 =
      some (.ok "1000\t7\n1000\t7\n1000\t7\n".toList) := by
  refine ⟨by decide +kernel, by decide +kernel, by decide +kernel⟩

/-! ## Whole numbers -/

/-- **C139, `int`.** With a positive interval the values are `min + i * interval`, as far as they are not above `max`, if no sum is too big for the type. -/
theorem C139_int_partial (func : Int → Int) (mx h : Int) (hh : 0 < h) (hs : mx + h ≤ 2147483647) : ∀ (n : Nat) (mn : Int), -2147483648 ≤ mn →
    ((mx - mn) / h + 1).toNat < n → samplesInt func mx h n mn =
      some (.ok ((List.range ((mx - mn) / h + 1).toNat).map fun i : Nat => (mn + (i : Int) * h, func (mn + (i : Int) * h)))) := by
  intro n
  induction n with
  | zero => intro mn _ h; omega
  | succ n ih =>
    intro mn h1 hn
    rw [samplesInt]
    by_cases hc : mn ≤ mx
    · have hq : (mx - (mn + h)) / h = (mx - mn) / h - 1 := by
        rw [show mx - (mn + h) = mx - mn - 1 * h by ring, Int.sub_mul_ediv_right _ _ (by omega)]
      have h0 : 0 ≤ (mx - mn) / h := Int.ediv_nonneg (by omega) hh.le
      rw [if_pos (by omega), if_pos (by omega), ih (mn + h) (by omega) (by rw [hq]; omega), hq]
      have e : ((mx - mn) / h + 1).toNat = ((mx - mn) / h - 1 + 1).toNat + 1 := by omega
      rw [e, List.range_succ_eq_map]
      simp only [Option.map_some, Res.map, List.map_cons, List.map_map, Function.comp_def]
      congr 3
      · simp
      · refine List.map_congr_left fun i _ => ?_
        rw [show mn + h + (i : Int) * h = mn + ((i.succ : Nat) : Int) * h by push_cast; ring]
    · have : (mx - mn) / h < 0 := Int.ediv_neg_of_neg_of_pos (by omega) hh
      rw [if_neg (by omega), show ((mx - mn) / h + 1).toNat = 0 by omega]
      rfl

example : samplesInt (fun x => x * x) 7 3 5 0 = some (.ok [(0, 0), (3, 9), (6, 36)]) := by decide

/-- **C139, `int` (violated).** The default interval of `int` is zero, so that the loop does not end; and if `max` is the largest number the sum
overflows. -/
theorem C139_int_violated (func : Int → Int) :
    (∀ (mn mx : Int) (n : Nat), -2147483648 ≤ mn → mn ≤ mx → mx ≤ 2147483647 → samplesInt func mx defaultIntervalInt n mn = none) ∧
    samplesInt func 2147483647 1 2 2147483647 = some .ub := by
  refine ⟨fun mn mx n h1 h2 h3 => ?_, by simp [samplesInt]⟩
  induction n with
  | zero => rfl
  | succ n ih =>
    rw [samplesInt, if_pos (by omega), if_pos (by unfold defaultIntervalInt; omega), show mn + defaultIntervalInt = mn from Int.add_zero _, ih]
    rfl

end Ieee
end Xo
