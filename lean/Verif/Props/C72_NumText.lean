import Verif.Lemmas.NumFmt
import Mathlib.Tactic.IntervalCases

/-!
C72: the text of a `float` or `double` is the nearest decimal with six significant digits; reading a text gives the
nearest number of the type; writing, reading and writing again gives the same text; exactly the numbers nearest to a
decimal of six digits survive writing and reading.
-/
namespace Xo
open Num Spec

/-- The text written for a finite number stands for a decimal of at most six digits, no decimal of six digits is nearer,
and the relative error is at most five millionths. The text is read as exactly that decimal before it is rounded. -/
theorem C72_write_nearest {x : Rat} (hx : 0 ≤ x) :
    ∃ d, readMag (gMag x) = some d ∧ Decimal 6 d ∧ (∀ d', Decimal 6 d' → |d - x| ≤ |d' - x|) ∧ |d - x| ≤ x * (5 / 10 ^ 6) := by
  refine ⟨roundG x, readMag_gMag hx, roundG_decimal hx, fun d' h => roundG_nearest hx h, ?_⟩
  rcases eq_or_lt_of_le hx with rfl | hx
  · simp [roundG]
  · have := roundG_close hx
    norm_num at this ⊢
    exact this

example : gMag (1 / 3) = "0.333333".toList ∧ gMag 1234567 = "1.23457e+06".toList ∧ gMag (15 / 10) = "1.5".toList ∧
    gMag (1 / 10 ^ 5) = "1e-05".toList ∧ gMag 100000 = "100000".toList := by decide +kernel

/-- Reading a decimal text: the nearest number of the type, if that is finite. -/
theorem C72_read_nearest {f : Fmt} (hf : f = binary32 ∨ f = binary64) {s : Str} {v r : Rat} {neg : Bool}
    (hs : readMag s = some v) (hv : 0 < v) (hd : ∃ c t, s = c :: t ∧ isDigitC c = true)
    (h : strtod f (signText neg ++ s) = some (.fin neg r)) :
    Binary f.prec f.emin f.emax r ∧ ∀ y, Binary f.prec f.emin f.emax y → |r - v| ≤ |y - v| := by
  have hf : f.Ok := by rcases hf with rfl | rfl; exacts [binary32_ok, binary64_ok]
  obtain ⟨c, t, rfl, hc⟩ := hd
  have hd : 48 ≤ c.toNat ∧ c.toNat ≤ 57 := by simpa [isDigitC, Bool.and_eq_true, decide_eq_true_eq] using hc
  have hlow : lower c = c := by unfold lower; rw [if_neg (by omega)]
  have e1 := dropSpace_sign (neg := neg) (cs := t) (not_space_of_digit hc)
  have e2 : splitSign (signText neg ++ c :: t) = (neg, c :: t) := by
    apply splitSign_signText
    refine ⟨c, t, rfl, ?_, ?_⟩ <;> rintro rfl <;> revert hd <;> decide
  have e3 : ∀ w : Char, 57 < w.toNat → ∀ ws : Str, ((c :: t).take 3).map lower ≠ w :: ws := by
    intro w hw ws h
    simp only [List.take_succ_cons, List.map_cons, List.cons.injEq, hlow] at h
    rw [← h.1] at hw
    omega
  unfold strtod at h
  simp only [e1, e2] at h
  rw [if_neg (show ¬ _ = "inf".toList from e3 'i' (by decide) _), if_neg (show ¬ _ = "nan".toList from e3 'n' (by decide) _), hs] at h
  simp only [Option.map_some, Option.some.injEq, roundFl] at h
  split at h
  · rename_i r' hr
    cases h
    exact ⟨rnd_binary hf hv hr, fun y hy => rnd_nearest hf hv hr hy⟩
  · cases h

example : ∃ r, strtod binary32 (signText true ++ "0.1".toList) = some (.fin true r) ∧ r = 13421773 / 2 ^ 27 :=
  ⟨13421773 / 2 ^ 27, by decide +kernel, rfl⟩

/-- Infinities, NaNs and zeros come back, with their sign. -/
theorem C72_special {f : Fmt} (neg : Bool) :
    strtod f (toStr (.inf neg)) = some (.inf neg) ∧ strtod f (toStr (.nan neg)) = some (.nan neg) ∧
    strtod f (toStr (.fin neg 0)) = some (.fin neg 0) := by
  refine ⟨by cases neg <;> rfl, by cases neg <;> rfl, ?_⟩
  rw [strtod_toStr_fin f neg (le_refl 0)]
  simp [roundG, roundFl, rnd_zero]

/-- The smallest normal number of a type. -/
def minNormal (f : Fmt) : Rat := 2 ^ (f.emin + f.prec - 1)

theorem read_written {f : Fmt} (hf : f = binary32 ∨ f = binary64) (neg : Bool) {x : Rat}
    (h1 : minNormal f ≤ x) (h2 : x ≤ maxFin f) :
    strtod f (toStr (.fin neg x)) = some (.fin neg (rndVal f (roundG x))) ∧
    rnd f (roundG x) = some (rndVal f (roundG x)) ∧ 0 < x ∧ (2 : Rat) ^ (f.emin + f.prec - 2) ≤ roundG x := by
  have hok : f.Ok := by rcases hf with rfl | rfl; exacts [binary32_ok, binary64_ok]
  have hx : 0 < x := lt_of_lt_of_le (two_pos' _) h1
  have hmax : roundG x ≤ maxFin f := by
    rcases hf with rfl | rfl
    · exact roundG_le_max32 hx h2
    · exact roundG_le_max64 hx h2
  have hr := rnd_finite hok (roundG_pos hx) hmax
  refine ⟨?_, hr, hx, ?_⟩
  · rw [strtod_toStr_fin f neg hx.le]
    unfold roundFl
    rw [hr]
    rfl
  · have hc := (abs_le.1 (roundG_close hx)).1
    have e : minNormal f = 2 ^ (f.emin + f.prec - 2) * 2 := by
      have := two_add (f.emin + f.prec - 2) 1
      unfold minNormal
      rw [show f.emin + (f.prec : Int) - 1 = f.emin + f.prec - 2 + ((1 : Nat) : Int) by push_cast; ring, this]
      norm_num
    have := two_pos' (f.emin + f.prec - 2)
    nlinarith

/-- Writing a normal number, reading the text and writing again gives the same text. -/
theorem C72_text_stable {f : Fmt} (hf : f = binary32 ∨ f = binary64) (neg : Bool) {x : Rat}
    (h1 : minNormal f ≤ x) (h2 : x ≤ maxFin f) :
    ∃ v, strtod f (toStr (.fin neg x)) = some v ∧ toStr v = toStr (.fin neg x) := by
  have hok : f.Ok := by rcases hf with rfl | rfl; exacts [binary32_ok, binary64_ok]
  obtain ⟨e1, e2, hx, hlow⟩ := read_written hf neg h1 h2
  refine ⟨_, e1, ?_⟩
  have hy := roundG_pos hx
  obtain ⟨m, k, hm1, hm2, hmk⟩ := decimal_six (roundG_decimal hx.le) hy
  have hc := rnd_close hok hlow
  have hpos : 0 < rndVal f (roundG x) := by
    have := (abs_le.1 hc).1
    unfold rndVal
    have : roundG x / 2 ^ 23 < roundG x := by
      rw [div_lt_iff₀ (by norm_num)]; nlinarith
    linarith
  have g1 : gMag (rndVal f (roundG x)) = gMag (m * 10 ^ k) :=
    gMag_of_close hpos hm1 hm2 (by rw [← hmk]; exact hc)
  -- the digits of `x` are those of the decimal
  have g2 : gMag x = gMag (m * 10 ^ k) := by
    have s1 : sci x = (m, k + 5) := by
      have a := sci_unique (x := m * 10 ^ k) hm1 hm2 (by
        rw [sub_self, abs_zero, ← hmk]; exact div_nonneg hy.le (by norm_num))
      obtain ⟨b1, b2, _⟩ := sci_cases x hx
      have b := sci_unique (x := roundG x) (d := (sci x).1) (k := (sci x).2 - 5) b1 b2 (by
        have e : roundG x = (sci x).1 * 10 ^ ((sci x).2 - 5) := by unfold roundG; rw [if_neg hx.ne']
        rw [← e, sub_self, abs_zero]; exact div_nonneg hy.le (by norm_num))
      rw [← hmk, b] at a
      rw [← a]
      ext <;> simp
    have s2 := sci_unique (x := m * 10 ^ k) hm1 hm2 (by
      rw [sub_self, abs_zero, ← hmk]; exact div_nonneg hy.le (by norm_num))
    have hy' : (m : Rat) * 10 ^ k ≠ 0 := by rw [← hmk]; exact hy.ne'
    unfold gMag
    rw [if_neg hx.ne', if_neg hy', s1, s2]
  show signText neg ++ gMag _ = signText neg ++ gMag x
  rw [g1, g2]

example : minNormal binary32 ≤ 1234567 ∧ (1234567 : Rat) ≤ maxFin binary32 := by
  refine ⟨le_trans (two_mono (b := 0) (by decide)) (by norm_num), ?_⟩
  simp only [maxFin, binary32]; norm_num

/-- Exactly the normal numbers nearest to some decimal of six digits survive writing and reading. -/
theorem C72_survive {f : Fmt} (hf : f = binary32 ∨ f = binary64) (neg : Bool) {x : Rat}
    (h1 : minNormal f ≤ x) (hb : Binary f.prec f.emin f.emax x) :
    strtod f (toStr (.fin neg x)) = some (.fin neg x) ↔ ∃ d, 0 < d ∧ Decimal 6 d ∧ rnd f d = some x := by
  have hok : f.Ok := by rcases hf with rfl | rfl; exacts [binary32_ok, binary64_ok]
  obtain ⟨e1, e2, hx, hlow⟩ := read_written hf neg h1 (binary_le_max hb)
  rw [e1]
  constructor
  · intro h
    simp only [Option.some.injEq, Fl.fin.injEq, true_and] at h
    exact ⟨roundG x, roundG_pos hx, roundG_decimal hx.le, by rw [e2, h]⟩
  · rintro ⟨d, hd, hdec, hr⟩
    obtain ⟨hxe, _⟩ := rnd_some hr
    have hp := hok.prec
    have hge : (2 : Rat) ^ (f.emin + f.prec - 2) ≤ d := by
      by_contra hc
      rw [not_le] at hc
      have := rnd_val_le_pow (f := f) hd (k := f.emin + f.prec - 2) (by omega) (by omega) hc.le
      have h2 : rndVal f d ≤ 2 ^ (f.emin + f.prec - 2) := this
      rw [← hxe] at h2
      have : (2 : Rat) ^ (f.emin + f.prec - 2) < minNormal f := two_lt_iff.2 (by omega)
      linarith
    have hc := rnd_close hok hge
    have hc' : |x - d| ≤ d / 2 ^ 23 := by rw [hxe]; exact hc
    obtain ⟨m, k, hm1, hm2, hmk⟩ := decimal_six hdec hd
    have : roundG x = d := by rw [hmk]; exact roundG_of_close hx hm1 hm2 (by rw [← hmk]; exact hc')
    rw [this, ← hxe]

/-- In particular every number read from a decimal of six digits in the normal range. -/
theorem C72_six_digits {f : Fmt} (hf : f = binary32 ∨ f = binary64) (neg : Bool) {d x : Rat} (hd : 0 < d)
    (hdec : Decimal 6 d) (hr : rnd f d = some x) (h1 : minNormal f ≤ x) :
    strtod f (toStr (.fin neg x)) = some (.fin neg x) := by
  have hok : f.Ok := by rcases hf with rfl | rfl; exacts [binary32_ok, binary64_ok]
  exact (C72_survive hf neg h1 (rnd_binary hok hd hr)).2 ⟨d, hd, hdec, hr⟩

example : Decimal 6 (1 / 10) ∧ rnd binary32 (1 / 10) = some (13421773 / 2 ^ 27) ∧
    strtod binary32 (toStr (.fin false (13421773 / 2 ^ 27))) = some (.fin false (13421773 / 2 ^ 27)) :=
  ⟨⟨1, -1, by norm_num, by norm_num⟩, by decide +kernel, by decide +kernel⟩

theorem binary_nat {f : Fmt} (hf : f = binary32 ∨ f = binary64) {n : Nat} (h : n < 2 ^ 24) :
    Binary f.prec f.emin f.emax (n : Rat) := by
  refine ⟨n, 0, ?_, ?_, ?_, by simp⟩
  · rcases hf with rfl | rfl
    · exact h
    · exact lt_trans h (by simp only [binary64]; norm_num)
  all_goals rcases hf with rfl | rfl <;> decide

/-- Other numbers do not survive. All the whole numbers with seven digits except the multiples of ten are written and read
as another number, although both types hold them exactly. -/
theorem C72_roundtrip_violated {f : Fmt} (hf : f = binary32 ∨ f = binary64) (neg : Bool) {n : Nat}
    (h1 : 10 ^ 6 ≤ n) (h2 : n < 10 ^ 7) (h3 : n % 10 ≠ 0) :
    Binary f.prec f.emin f.emax (n : Rat) ∧
    ∃ m : Nat, strtod f (toStr (.fin neg n)) = some (.fin neg (m : Rat)) ∧ m % 10 = 0 ∧ m ≠ n := by
  have hok : f.Ok := by rcases hf with rfl | rfl; exacts [binary32_ok, binary64_ok]
  have hn0 : (0 : Rat) < n := by exact_mod_cast (show 0 < n by omega)
  refine ⟨binary_nat hf (by omega), ?_⟩
  have hlog : Int.log 10 (n : Rat) = 6 := by
    apply log10_eq
    · have : ((10 ^ 6 : Nat) : Rat) ≤ n := Nat.cast_le.2 h1
      norm_num at this ⊢; exact this
    · have : (n : Rat) < ((10 ^ 7 : Nat) : Rat) := Nat.cast_lt.2 h2
      norm_num at this ⊢; exact this
  set d := rhe ((n : Rat) / 10 ^ (6 - 5 : Int)) with hd
  have hr : roundG (n : Rat) = d * 10 := by
    rw [roundG_eq hn0, hlog, ← hd]; norm_num
  have hd1 : (100000 : Int) ≤ d := le_rhe (by
    have : ((10 ^ 6 : Nat) : Rat) ≤ n := Nat.cast_le.2 h1
    push_cast at this ⊢
    norm_num
    rw [le_div_iff₀ (by norm_num)]
    linarith)
  have hd2 : d ≤ 1000000 := rhe_le (by
    have : (n : Rat) < ((10 ^ 7 : Nat) : Rat) := Nat.cast_lt.2 h2
    push_cast at this ⊢
    norm_num
    rw [div_le_iff₀ (by norm_num)]
    linarith)
  have hm : roundG (n : Rat) = ((d.toNat * 10 : Nat) : Rat) := by
    rw [hr]
    push_cast
    have : ((d.toNat : Nat) : Int) = d := by omega
    rw [show ((d.toNat : Nat) : Rat) = d by exact_mod_cast congrArg (Int.cast (R := Rat)) this]
  refine ⟨d.toNat * 10, ?_, by omega, by omega⟩
  rw [strtod_toStr_fin f neg hn0.le, hm]
  unfold roundFl
  rw [rnd_exact hok (by exact_mod_cast (show 0 < d.toNat * 10 by omega)) (binary_nat hf (by omega))]

example : strtod binary64 (toStr (.fin false 1234567)) = some (.fin false 1234570) := by decide +kernel

/-- Two different numbers with the same text. -/
theorem C72_injective_violated : Binary 53 (-1074) 1024 (1 + 1 / 2 ^ 52) ∧
    toStr (.fin false (1 + 1 / 2 ^ 52)) = toStr (.fin false 1) ∧
    fromStrDouble (toStr (.fin false (1 + 1 / 2 ^ 52))) = some (.fin false 1) :=
  ⟨⟨2 ^ 52 + 1, -52, by norm_num, by norm_num, by norm_num, by norm_num⟩, by decide +kernel, by decide +kernel⟩

theorem strip_length (ds : Str) : (strip ds).length ≤ ds.length := by
  obtain ⟨n, h⟩ := strip_split ds
  have := congrArg List.length h
  rw [List.length_append] at this
  omega

theorem withFrac_length (ip fp : Str) : (withFrac ip fp).length ≤ ip.length + fp.length + 1 := by
  unfold withFrac
  split
  · omega
  · simp [List.length_append]; omega

/-- The text of every number of either type, with the terminating zero, fits into the buffer of 32 characters. -/
theorem C72_buffer (neg : Bool) {x : Rat} (h : Binary 53 (-1074) 1024 x) : (toStr (.fin neg x)).length < 31 := by
  have hs : (signText neg).length ≤ 1 := by cases neg <;> simp [signText]
  have h0 : 0 ≤ x := by
    obtain ⟨m, e, _, _, _, rfl⟩ := h
    exact mul_nonneg (Nat.cast_nonneg _) (two_pos' _).le
  show (signText neg ++ gMag x).length < 31
  rw [List.length_append]
  rcases eq_or_lt_of_le h0 with rfl | hx
  · simp only [gMag, if_true, List.length_singleton]; omega
  have hle := binary_le_max (f := binary64) h
  have hge : (2 : Rat) ^ (-1074 : Int) ≤ x := by
    obtain ⟨m, e, _, he, _, rfl⟩ := h
    have hm : 1 ≤ m := by
      rcases Nat.eq_zero_or_pos m with rfl | hm
      · simp at hx
      · exact hm
    calc (2 : Rat) ^ (-1074 : Int) ≤ 2 ^ e := two_mono he
      _ = 1 * 2 ^ e := (one_mul _).symm
      _ ≤ m * 2 ^ e := mul_le_mul_of_nonneg_right (by exact_mod_cast hm) (two_pos' _).le
  have hl1 : Int.log 10 x ≤ 308 := by
    have a : (10 : Rat) ^ Int.log 10 x < 10 ^ (309 : Int) := by
      refine lt_of_le_of_lt ((log10_le x hx).trans hle) ?_
      have : maxFin binary64 < 2 ^ (1024 : Int) := by
        unfold maxFin
        simp only [binary64]
        have e : (2 : Rat) ^ (1024 : Int) = 2 ^ 53 * 2 ^ ((1024 : Int) - (53 : Nat)) := by
          rw [← zpow_natCast, ← zpow_add₀ (by norm_num)]; congr 1
        rw [e]
        exact mul_lt_mul_of_pos_right (by linarith) (two_pos' _)
      refine this.trans ?_
      have e1 : (2 : Rat) ^ (1024 : Int) = ((2 ^ 1024 : Nat) : Rat) := by rw [Nat.cast_pow]; exact_mod_cast rfl
      have e2 : (10 : Rat) ^ (309 : Int) = ((10 ^ 309 : Nat) : Rat) := by rw [Nat.cast_pow]; exact_mod_cast rfl
      rw [e1, e2]
      exact Nat.cast_lt.2 (by decide +kernel)
    have := ten_lt_iff.1 a
    omega
  have hl2 : -324 ≤ Int.log 10 x := by
    have a : (10 : Rat) ^ (-324 : Int) < 10 ^ (Int.log 10 x + 1) := by
      refine lt_of_le_of_lt ?_ (lt_log10 x)
      refine le_trans ?_ hge
      rw [zpow_neg, zpow_neg]
      apply inv_anti₀ (two_pos' _)
      have e1 : (2 : Rat) ^ (1074 : Int) = ((2 ^ 1074 : Nat) : Rat) := by rw [Nat.cast_pow]; exact_mod_cast rfl
      have e2 : (10 : Rat) ^ (324 : Int) = ((10 ^ 324 : Nat) : Rat) := by rw [Nat.cast_pow]; exact_mod_cast rfl
      rw [e1, e2]
      exact Nat.cast_le.2 (by decide +kernel)
    have := ten_lt_iff.1 a
    omega
  have he : -324 ≤ (sci x).2 ∧ (sci x).2 ≤ 309 := by
    unfold sci
    simp only
    split <;> constructor <;> simp only <;> omega
  obtain ⟨l6, _, _⟩ := sci_text hx
  unfold gMag
  rw [if_neg hx.ne']
  simp only
  split
  · have a1 := withFrac_length ((natToStr (sci x).1.toNat).take 1) (strip ((natToStr (sci x).1.toNat).drop 1))
    have a2 := strip_length ((natToStr (sci x).1.toNat).drop 1)
    rw [List.length_take, l6] at a1
    rw [List.length_drop, l6] at a2
    have a3 : (natToStr (sci x).2.natAbs).length ≤ 3 := by
      by_cases b1 : (sci x).2.natAbs < 10
      · rw [natToStr_length (k := 0) (by omega) (by left; rfl)]; omega
      · by_cases b2 : (sci x).2.natAbs < 100
        · rw [natToStr_length (k := 1) (by omega) (by right; omega)]; omega
        · rw [natToStr_length (k := 2) (by omega) (by right; omega)]
    have a4 : (expText (sci x).2).length ≤ 5 := by
      unfold expText
      rw [List.length_cons]
      split
      · rw [List.length_cons]; omega
      · omega
    simp only [List.length_append, List.length_cons]
    omega
  · split
    · have a1 := withFrac_length ['0'] (strip (List.replicate (-(sci x).2 - 1).toNat '0' ++ natToStr (sci x).1.toNat))
      have a2 := strip_length (List.replicate (-(sci x).2 - 1).toNat '0' ++ natToStr (sci x).1.toNat)
      rw [List.length_append, List.length_replicate, l6] at a2
      simp only [List.length_singleton] at a1
      omega
    · have a1 := withFrac_length ((natToStr (sci x).1.toNat).take ((sci x).2 + 1).toNat)
        (strip ((natToStr (sci x).1.toNat).drop ((sci x).2 + 1).toNat))
      have a2 := strip_length ((natToStr (sci x).1.toNat).drop ((sci x).2 + 1).toNat)
      rw [List.length_take, l6] at a1
      rw [List.length_drop, l6] at a2
      omega

/-- Truth values come back, and exactly six words are read. -/
theorem C72_bool : (∀ b, fromStrBool (boolToStr b) = some b) ∧
    ∀ s, (fromStrBool s).isSome ↔ s ∈ ["1", "true", "yes", "0", "false", "no"].map String.toList := by
  refine ⟨by decide, ?_⟩
  intro s
  unfold fromStrBool
  constructor
  · intro h
    split at h
    · rename_i hs; simp only [List.mem_cons, List.not_mem_nil, or_false, List.map_cons, List.map_nil] at hs ⊢; tauto
    · split at h
      · rename_i hs; simp only [List.mem_cons, List.not_mem_nil, or_false, List.map_cons, List.map_nil] at hs ⊢; tauto
      · cases h
  · intro h
    simp only [List.map_cons, List.map_nil, List.mem_cons, List.not_mem_nil, or_false] at h
    rcases h with rfl | rfl | rfl | rfl | rfl | rfl <;> decide

/-- `set_to_str_precision` returns the previous value, as its comment says: after any calls the value is the last one
set, or 4. -/
theorem C72_precision (ops : List PrecOp) :
    (runPrec 4 ops).1 = ((ops.filterMap fun | .set p => some p | _ => none).getLast?).getD 4 := by
  suffices h : ∀ p0, (runPrec p0 ops).1 = ((ops.filterMap fun | .set p => some p | _ => none).getLast?).getD p0 from h 4
  induction ops with
  | nil => intro p0; rfl
  | cons o ops ih =>
    intro p0
    cases o with
    | set p =>
      simp only [runPrec, PrecOp.run, List.filterMap_cons, ih, List.getLast?_cons, Option.getD_some]
    | get => simpa [runPrec, PrecOp.run] using ih p0
    | text v => simpa [runPrec, PrecOp.run] using ih p0

/-- But whatever precision is set, `to_str` writes the same text. -/
theorem C72_precision_violated (p : Int) (v : Fl) :
    (runPrec 4 [.set p, .text v]).2 = [.num 4, .text (toStr v)] ∧
    (runPrec 4 [.set 2, .text (.fin false (1 / 3))]).2 ≠ [.num 4, .text "0.33".toList] :=
  ⟨rfl, by decide +kernel⟩

/-- A text that does not begin with a number is refused. -/
example : fromStrDouble "abc".toList = none ∧ fromStrDouble "".toList = none ∧ fromStrDouble "-".toList = none ∧
    fromStrFloat "1e39".toList = some (.inf false) ∧ fromStrDouble " 0x1p3zz".toList = some (.fin false 8) := by decide +kernel

end Xo
