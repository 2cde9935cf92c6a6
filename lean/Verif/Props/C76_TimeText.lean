import Verif.Lemmas.TimeText

/-!
C76: the text of a time. From a minute (or the given limit) on it is a clock text, `hours:minutes:seconds` or
`minutes:seconds`, that tells the whole seconds; below, it tells the seconds with the given number of decimals, and is
read back as the time to that precision. Clock texts are not read back, and negative times come back a nanosecond off.
-/
namespace Xo
open TimeText
open Num hiding toStr

namespace Spec

/-- The number of seconds told by the fields of a clock text, the first the most significant. -/
def clockSeconds (fields : List Str) : Nat := fields.foldl (fun a f => a * 60 + numVal f) 0

/-- The fields of a clock text: `m:ss` with less than an hour, or `h:mm:ss` with at least one. -/
inductive Clock : List Str → Prop
  | ms (m s : Str) : m ≠ [] → s.length = 2 → numVal m < 60 → numVal s < 60 → Clock [m, s]
  | hms (h m s : Str) : h ≠ [] → m.length = 2 → s.length = 2 → 0 < numVal h → numVal m < 60 → numVal s < 60 → Clock [h, m, s]

end Spec
open Spec

theorem numVal_natToStr (n : Nat) : numVal (natToStr n) = n := (natToStr_spec n).2.2

/-- From a minute on, or from the limit, or without decimals, the text is a clock text that tells the whole seconds. -/
theorem C76_clock {ns : Int} (dec : Int) (hide : Rat) (h0 : 0 ≤ ns) (h1 : ns / 10 ^ 9 < 2 ^ 31)
    (h : dec ≤ 0 ∨ hide ≤ (ns : Rat) / 10 ^ 9 ∨ 60 * 10 ^ 9 ≤ ns) :
    ∃ fields, toStr ns dec hide = .ok ([':'].intercalate fields) ∧ Clock fields ∧
      (∀ f ∈ fields, ∀ c ∈ f, c ∈ "0123456789".toList) ∧ (clockSeconds fields : Int) = ns / 10 ^ 9 := by
  have hdig : ∀ n c, c ∈ natToStr n → c ∈ "0123456789".toList := fun n c hc => (isDigitC_iff c).1 (natToStr_digits n c hc)
  by_cases hh : 3600 ≤ ns / 10 ^ 9
  · have p1 := pad2_spec (n := ns / 10 ^ 9 % 3600 / 60) (by omega) (by omega)
    have p2 := pad2_spec (n := ns / 10 ^ 9 % 60) (by omega) (by omega)
    refine ⟨[natToStr (ns / 10 ^ 9 / 3600).toNat, pad2 (ns / 10 ^ 9 % 3600 / 60), pad2 (ns / 10 ^ 9 % 60)], ?_, ?_, ?_, ?_⟩
    · rw [toStr_hours dec hide hh h1]; simp [List.intercalate, List.intersperse]
    · refine .hms _ _ _ (natToStr_ne _) p1.1 p2.1 ?_ ?_ ?_
      · rw [numVal_natToStr]; omega
      · rw [p1.2.2]; omega
      · rw [p2.2.2]; omega
    · intro f hf c hc
      simp only [List.mem_cons, List.not_mem_nil, or_false] at hf
      rcases hf with rfl | rfl | rfl
      · exact hdig _ c hc
      · exact (isDigitC_iff c).1 (p1.2.1 c hc)
      · exact (isDigitC_iff c).1 (p2.2.1 c hc)
    · simp only [clockSeconds, List.foldl_cons, List.foldl_nil, numVal_natToStr, p1.2.2, p2.2.2]
      omega
  by_cases hm : 60 ≤ ns / 10 ^ 9
  · have p2 := pad2_spec (n := ns / 10 ^ 9 % 60) (by omega) (by omega)
    refine ⟨[natToStr (ns / 10 ^ 9 / 60).toNat, pad2 (ns / 10 ^ 9 % 60)], ?_, ?_, ?_, ?_⟩
    · rw [toStr_minutes dec hide hm (by omega)]; simp [List.intercalate, List.intersperse]
    · refine .ms _ _ (natToStr_ne _) p2.1 ?_ ?_
      · rw [numVal_natToStr]; omega
      · rw [p2.2.2]; omega
    · intro f hf c hc
      simp only [List.mem_cons, List.not_mem_nil, or_false] at hf
      rcases hf with rfl | rfl
      · exact hdig _ c hc
      · exact (isDigitC_iff c).1 (p2.2.1 c hc)
    · simp only [clockSeconds, List.foldl_cons, List.foldl_nil, numVal_natToStr, p2.2.2]
      omega
  · have p2 := pad2_spec (n := ns / 10 ^ 9) (by omega) (by omega)
    have h' : dec ≤ 0 ∨ hide ≤ seconds ns := by
      rcases h with h | h | h
      · exact .inl h
      · exact .inr h
      · omega
    refine ⟨[['0'], pad2 (ns / 10 ^ 9)], ?_, ?_, ?_, ?_⟩
    · rw [toStr_seconds h0 (by omega) h']; simp [List.intercalate, List.intersperse]
    · refine .ms _ _ (by simp) p2.1 (by decide) ?_
      rw [p2.2.2]; omega
    · intro f hf c hc
      simp only [List.mem_cons, List.not_mem_nil, or_false] at hf
      rcases hf with rfl | rfl
      · simp only [List.mem_singleton] at hc; subst hc; decide
      · exact (isDigitC_iff c).1 (p2.2.1 c hc)
    · simp only [clockSeconds, List.foldl_cons, List.foldl_nil, p2.2.2]
      have : numVal ['0'] = 0 := by decide
      omega

example : toStr 36061000000000 = .ok "10:01:01".toList ∧ toStr 65900000000 = .ok "1:05".toList ∧
    toStr 10000000000 = .ok "0:10".toList ∧ clockSeconds ["10".toList, "01".toList, "01".toList] = 36061 := by decide +kernel

/-- Times whose seconds do not fit an `int` have no text: the conversion is undefined. -/
theorem C76_undefined {ns : Int} (dec : Int) (hide : Rat) (h : 2 ^ 31 ≤ ns / 10 ^ 9) : toStr ns dec hide = .ub := by
  unfold toStr
  dsimp only
  rw [trunc_seconds (by omega), if_pos (by omega)]

/-- What is read from seconds with decimals, in nanoseconds. -/
theorem read_fixed (neg : Bool) {dec : Nat} (h1 : 1 ≤ dec) (h9 : dec ≤ 9) {x : Rat} (hx : 0 ≤ x) (hb : x ≤ 10 ^ 6 - 1) :
    ∃ r, fromStrDouble (signText neg ++ fixedMag dec x) = some (.fin neg r) ∧
      |r * 10 ^ 9 - ((rhe (x * 10 ^ dec) * 10 ^ (9 - dec) : Int) : Rat)| < 1 / 2 := by
  obtain ⟨ip, fp, e, i1, i2, i3, i4, i5⟩ := fixedMag_text dec (by omega) x
  have ht := strtod_text binary64 neg i1 i2 i3 (tail := []) (by simp)
  rw [List.append_nil, ← e] at ht
  set k := rhe (x * 10 ^ dec) with hk
  have hk0 : 0 ≤ k := le_rhe (by push_cast; positivity)
  have hkc : ((k.toNat : Nat) : Rat) = k := by
    have : ((k.toNat : Nat) : Int) = k := by omega
    exact_mod_cast congrArg (Int.cast (R := Rat)) this
  have hkb : (k : Rat) ≤ 10 ^ 6 * 10 ^ dec := by
    have h2 := (abs_le.1 (rhe_close (x * 10 ^ dec))).2
    have h3 : x * 10 ^ dec ≤ (10 ^ 6 - 1) * 10 ^ dec := mul_le_mul_of_nonneg_right hb (by positivity)
    have h4 : (1 : Rat) ≤ 10 ^ dec := one_le_pow₀ (by norm_num)
    rw [← hk] at h2
    nlinarith
  -- the number written
  have hd : (digsVal 10 (ip ++ fp) : Rat) * 10 ^ (-(fp.length : Int)) * 10 ^ readExp ['e', 'E'] [] = k / 10 ^ dec := by
    rw [i5, i4, hkc]
    simp only [readExp, zpow_zero, mul_one, zpow_neg, zpow_natCast]
    rfl
  rw [hd] at ht
  have hpd : (0 : Rat) < 10 ^ dec := by positivity
  have hsplit : (10 : Rat) ^ 9 = 10 ^ dec * 10 ^ (9 - dec) := by rw [← pow_add]; congr 1; omega
  rcases eq_or_lt_of_le hk0 with hz | hpos
  · refine ⟨0, ?_, ?_⟩
    · unfold fromStrDouble
      rw [ht, ← hz]
      simp [roundFl, rnd_zero]
    · rw [← hz]; norm_num
  · have hkr : (1 : Rat) ≤ k := by exact_mod_cast hpos
    have hd1 : (0 : Rat) < k / 10 ^ dec := by positivity
    have hd2 : (k : Rat) / 10 ^ dec ≤ 10 ^ 6 := by rw [div_le_iff₀ hpd]; exact hkb
    have hf := rnd64_finite hd1 (hd2.trans (by norm_num))
    have hlow : (2 : Rat) ^ (-1000 : Int) ≤ k / 10 ^ dec := by
      have h2 : (10 : Rat) ^ dec ≤ 10 ^ 9 := pow_le_pow_right₀ (by norm_num) h9
      have h3 : (2 : Rat) ^ (-1000 : Int) ≤ 2 ^ (-30 : Int) := two_mono (by decide)
      have h4 : (2 : Rat) ^ (-30 : Int) ≤ 1 / 10 ^ 9 := by norm_num
      have h5 : (1 : Rat) / 10 ^ 9 ≤ 1 / 10 ^ dec := one_div_le_one_div_of_le hpd h2
      have h6 : (1 : Rat) / 10 ^ dec ≤ k / 10 ^ dec := div_le_div_of_nonneg_right hkr hpd.le
      exact h3.trans (h4.trans (h5.trans h6))
    have hc := rnd64_close hlow
    refine ⟨rndVal binary64 (k / 10 ^ dec), ?_, ?_⟩
    · unfold fromStrDouble
      rw [ht]
      simp only [roundFl, hf]
    · push_cast
      have e2 : (k : Rat) * 10 ^ (9 - dec) = k / 10 ^ dec * 10 ^ 9 := by rw [hsplit]; field_simp
      rw [e2, ← sub_mul, abs_mul, abs_of_pos (by positivity : (0 : Rat) < 10 ^ 9)]
      have h7 : (k : Rat) / 10 ^ dec / 2 ^ 53 ≤ 10 ^ 6 / 2 ^ 53 := div_le_div_of_nonneg_right hd2 (by positivity)
      have h8 : |rndVal binary64 (k / 10 ^ dec) - k / 10 ^ dec| * 10 ^ 9 ≤ 10 ^ 6 / 2 ^ 53 * 10 ^ 9 :=
        mul_le_mul_of_nonneg_right (hc.trans h7) (by positivity)
      refine lt_of_le_of_lt h8 ?_
      norm_num

theorem trunc_near {y : Rat} {n : Int} (hn : 0 ≤ n) (h : |y - n| < 1 / 2) : Time.trunc (y + 1 / 2) = n := by
  have h1 := (abs_lt.1 h).1
  have h2 := (abs_lt.1 h).2
  have hn' : (0 : Rat) ≤ n := by exact_mod_cast hn
  unfold Time.trunc
  rw [if_pos (by linarith)]
  show ⌊y + 1 / 2⌋ = n
  rw [Int.floor_eq_iff]
  constructor <;> linarith

theorem trunc_near_neg {y : Rat} {n : Int} (hn : 0 < n) (h : |y - n| < 1 / 2) : Time.trunc (-y + 1 / 2) = -n + 1 := by
  have h1 := (abs_lt.1 h).1
  have h2 := (abs_lt.1 h).2
  have hn' : (1 : Rat) ≤ n := by exact_mod_cast hn
  unfold Time.trunc
  rw [if_neg (by linarith)]
  have : ⌊-(-y + 1 / 2)⌋ = n - 1 := by
    rw [Int.floor_eq_iff]
    push_cast
    constructor <;> linarith
  have e : (-(-y + 1 / 2)).floor = ⌊-(-y + 1 / 2)⌋ := rfl
  rw [e, this]
  ring

/-- Below a minute and the limit, reading the text gives the time rounded to the decimals written. -/
theorem C76_read_partial {ns : Int} {dec : Nat} {hide : Rat} (h0 : 0 ≤ ns) (h60 : ns < 60 * 10 ^ 9)
    (hh : (ns : Rat) / 10 ^ 9 < hide) (h1 : 1 ≤ dec) (h9 : dec ≤ 9) :
    ∃ s k, toStr ns dec hide = .ok s ∧ fromStr s = .ok (some (k * 10 ^ (9 - dec))) ∧
      2 * |k * 10 ^ (9 - dec) - ns| ≤ 10 ^ (9 - dec) := by
  have hs0 : 0 ≤ seconds ns := by unfold seconds; exact div_nonneg (by exact_mod_cast h0) (by norm_num)
  have hs1 : seconds ns < 60 := by
    unfold seconds
    rw [div_lt_iff₀ (by norm_num)]
    exact_mod_cast h60
  have e1 := toStr_decimals (ns := ns) (dec := dec) (hide := hide) (by omega) h60 (by omega) hh
  have e2 : fixed dec (seconds ns) = signText false ++ fixedMag dec (seconds ns) := by
    unfold fixed; rw [if_neg (not_lt.2 hs0)]; rfl
  rw [Int.toNat_natCast, e2] at e1
  obtain ⟨r, er, hr⟩ := read_fixed false h1 h9 hs0 (by linarith)
  refine ⟨_, rhe (seconds ns * 10 ^ dec), e1, ?_, ?_⟩
  · have hk0 : 0 ≤ rhe (seconds ns * 10 ^ dec) := le_rhe (by push_cast; positivity)
    have hkp : (0 : Int) < 10 ^ (9 - dec) := by positivity
    have ht := trunc_near (mul_nonneg hk0 hkp.le) hr
    have hkb : rhe (seconds ns * 10 ^ dec) ≤ 60 * 10 ^ dec := rhe_le (by
      push_cast; exact mul_le_mul_of_nonneg_right hs1.le (by positivity))
    have hb : rhe (seconds ns * 10 ^ dec) * 10 ^ (9 - dec) ≤ 60 * 10 ^ 9 := by
      have : (10 : Int) ^ 9 = 10 ^ dec * 10 ^ (9 - dec) := by rw [← pow_add]; congr 1; omega
      rw [this, ← mul_assoc]
      exact mul_le_mul_of_nonneg_right hkb hkp.le
    unfold fromStr
    rw [er]
    simp only [Bool.false_eq_true, if_false, Time.fromSeconds]
    rw [show r * 1000000000 + 1 / 2 = r * 10 ^ 9 + 1 / 2 by norm_num, ht]
    have h3 := mul_nonneg hk0 hkp.le
    unfold Time.i64
    rw [if_pos ⟨by omega, by omega⟩]
    rfl
  · have hc := rhe_close (seconds ns * 10 ^ dec)
    have hp : (0 : Rat) < 10 ^ (9 - dec) := by positivity
    have hsplit : (10 : Rat) ^ 9 = 10 ^ dec * 10 ^ (9 - dec) := by rw [← pow_add]; congr 1; omega
    have e : (ns : Rat) = seconds ns * 10 ^ dec * 10 ^ (9 - dec) := by
      unfold seconds; rw [mul_assoc, ← hsplit]; field_simp
    have h2 : (2 : Rat) * |(rhe (seconds ns * 10 ^ dec) : Rat) * 10 ^ (9 - dec) - ns| ≤ 10 ^ (9 - dec) := by
      rw [e, ← sub_mul, abs_mul, abs_of_pos hp]
      have := mul_le_mul_of_nonneg_right hc hp.le
      linarith
    exact_mod_cast h2

/-- With the default arguments, whole milliseconds below ten seconds come back exactly. -/
theorem C76_milliseconds {n : Int} (h0 : 0 ≤ n) (h1 : n < 10000) :
    ∃ s, toStr (n * 10 ^ 6) = .ok s ∧ fromStr s = .ok (some (n * 10 ^ 6)) := by
  obtain ⟨s, k, e1, e2, e3⟩ := C76_read_partial (ns := n * 10 ^ 6) (dec := 3) (hide := 10) (by omega) (by omega)
    (by rw [div_lt_iff₀ (by norm_num)]; have : (n : Rat) < 10000 := by exact_mod_cast h1
        push_cast; linarith) (by omega) (by omega)
  have e : k * 10 ^ (9 - 3) = n * 10 ^ 6 := by
    norm_num at e3 ⊢
    have := abs_le.1 (show |k * 1000000 - n * 1000000| ≤ 500000 by omega)
    omega
  exact ⟨s, e1, by rw [e2, e]⟩

/-- With nine decimals, every time below a minute comes back exactly. -/
theorem C76_nanoseconds {ns : Int} (h0 : 0 ≤ ns) (h60 : ns < 60 * 10 ^ 9) :
    ∃ s, toStr ns 9 60 = .ok s ∧ fromStr s = .ok (some ns) := by
  obtain ⟨s, k, e1, e2, e3⟩ := C76_read_partial (ns := ns) (dec := 9) (hide := 60) h0 h60
    (by rw [div_lt_iff₀ (by norm_num)]; exact_mod_cast h60) (by omega) (by omega)
  have e : k * 10 ^ (9 - 9) = ns := by
    norm_num at e3 ⊢
    have : |k - ns| ≤ 0 := by omega
    have := abs_nonpos_iff.1 this
    omega
  exact ⟨s, e1, by rw [e2, e]⟩

example : toStr 1234567890 = .ok "1.235".toList ∧ fromStr "1.235".toList = .ok (some 1235000000) ∧
    fromStr "x".toList = .ok none ∧ fromStr "inf".toList = .ub := by decide +kernel

/-- Reading a clock text gives the first field as seconds. -/
theorem read_clock (n : Nat) (h : n < 2 ^ 24) (t : Str) : fromStr (natToStr n ++ ':' :: t) = .ok (some (n * 10 ^ 9)) := by
  have ht := strtod_text binary64 false (natToStr_ne n) (natToStr_digits n) (fp := []) (by simp) (tail := ':' :: t)
    (by intro c hc; simp at hc; subst hc; decide)
  have e : withFrac (natToStr n) [] ++ ':' :: t = natToStr n ++ ':' :: t := rfl
  rw [e] at ht
  simp only [signText, Bool.false_eq_true, if_false, List.nil_append, List.append_nil, digsVal_natToStr, List.length_nil,
    Nat.cast_zero, neg_zero, zpow_zero, mul_one] at ht
  have e2 : readExp ['e', 'E'] (':' :: t) = 0 := by simp [readExp]
  rw [e2, zpow_zero, mul_one] at ht
  have hr : rnd binary64 (n : Rat) = some (n : Rat) := by
    rcases Nat.eq_zero_or_pos n with rfl | hn
    · simpa using rnd_zero binary64
    · refine rnd_exact binary64_ok (by exact_mod_cast hn) ⟨n, 0, lt_trans h (by simp only [binary64]; norm_num), by decide, by decide, by simp⟩
  unfold fromStr fromStrDouble
  rw [ht]
  simp only [roundFl, hr, Bool.false_eq_true, if_false, Time.fromSeconds]
  have := trunc_near (y := (n : Rat) * 1000000000) (n := n * 10 ^ 9) (by positivity) (by push_cast; norm_num)
  rw [this]
  unfold Time.i64
  rw [if_pos ⟨by omega, by omega⟩]
  rfl

/-- From ten seconds on, no time that can be written is read back: reading reports success and delivers less. -/
theorem C76_read_violated {ns : Int} (h0 : 10 * 10 ^ 9 ≤ ns) (h1 : ns / 10 ^ 9 < 2 ^ 31) :
    ∃ s v, toStr ns = .ok s ∧ fromStr s = .ok (some v) ∧ 60 * v ≤ ns ∧ v < ns := by
  by_cases hh : 3600 ≤ ns / 10 ^ 9
  · exact ⟨_, _, toStr_hours 3 10 hh h1, read_clock _ (by omega) _, by omega, by omega⟩
  by_cases hm : 60 ≤ ns / 10 ^ 9
  · exact ⟨_, _, toStr_minutes 3 10 hm (by omega), read_clock _ (by omega) _, by omega, by omega⟩
  · refine ⟨_, 0, toStr_seconds (dec := 3) (hide := 10) (by omega) (by omega) (.inr ?_), ?_, by omega, by omega⟩
    · unfold seconds
      rw [le_div_iff₀ (by norm_num)]
      exact_mod_cast h0
    · exact read_clock 0 (by norm_num) _

example : toStr 65000000000 = .ok "1:05".toList ∧ fromStr "1:05".toList = .ok (some 1000000000) := by decide +kernel

/-- Negative whole milliseconds come back a nanosecond too large. -/
theorem C76_negative_violated {n : Int} (h0 : 0 < n) (h1 : n < 10 ^ 8) :
    ∃ s, toStr (-(n * 10 ^ 6)) = .ok s ∧ fromStr s = .ok (some (-(n * 10 ^ 6) + 1)) := by
  have hnr : (0 : Rat) < n := by exact_mod_cast h0
  have hn8 : (n : Rat) < 10 ^ 8 := by exact_mod_cast h1
  have hsec : seconds (-(n * 10 ^ 6)) = -((n : Rat) / 1000) := by unfold seconds; push_cast; ring
  have hpos : (0 : Rat) < (n : Rat) / 1000 := by positivity
  have e1 := toStr_decimals (ns := -(n * 10 ^ 6)) (dec := 3) (hide := 10) (by omega) (by omega) (by omega)
    (by rw [hsec]; linarith)
  have e2 : fixed 3 (seconds (-(n * 10 ^ 6))) = signText true ++ fixedMag 3 ((n : Rat) / 1000) := by
    unfold fixed
    rw [hsec, if_pos (by linarith), neg_neg]
    rfl
  obtain ⟨r, er, hr⟩ := read_fixed true (dec := 3) (by omega) (by omega) hpos.le (by linarith)
  refine ⟨_, e1, ?_⟩
  have hrhe : rhe ((n : Rat) / 1000 * 10 ^ 3) = n := rhe_eq (by
    rw [show (n : Rat) / 1000 * 10 ^ 3 - n = 0 by ring]; norm_num)
  rw [hrhe] at hr
  have ht := trunc_near_neg (n := n * 10 ^ (9 - 3)) (by positivity) hr
  show fromStr (fixed 3 _) = _
  unfold fromStr
  rw [e2, er]
  simp only [if_true, Time.fromSeconds]
  rw [show -r * 1000000000 + 1 / 2 = -(r * 10 ^ 9) + 1 / 2 by ring, ht]
  unfold Time.i64
  rw [if_pos ⟨by omega, by omega⟩]
  rfl

example : toStr (-1500000000) = .ok "-1.500".toList ∧ fromStr "-1.500".toList = .ok (some (-1499999999)) := by decide +kernel

end Xo
