import Verif.Model.TimeText
import Verif.Lemmas.NumFmt

/-! Lemmas about the texts of times. -/
namespace Xo
namespace Num
open Spec

/-- Reading a number with a sign and something behind it. -/
theorem strtod_text (f : Fmt) (neg : Bool) {ip fp tail : Str} (h1 : ip ≠ []) (h2 : ∀ c ∈ ip, isDigitC c = true)
    (h3 : ∀ c ∈ fp, isDigitC c = true) (h4 : ∀ c, tail.head? = some c → isDigitC c = false ∧ c ≠ '.' ∧ c ≠ 'x' ∧ c ≠ 'X') :
    strtod f (signText neg ++ (withFrac ip fp ++ tail)) =
      some (roundFl f neg ((digsVal 10 (ip ++ fp) : Rat) * 10 ^ (-(fp.length : Int)) * 10 ^ readExp ['e', 'E'] tail)) := by
  have hreal := readReal_text h1 h2 h3 (tail := tail) fun c hc => ⟨(h4 c hc).1, (h4 c hc).2.1⟩
  obtain ⟨c, cs, rfl⟩ := List.exists_cons_of_ne_nil h1
  have hc : isDigitC c = true := h2 c (by simp)
  have hd : 48 ≤ c.toNat ∧ c.toNat ≤ 57 := by simpa [isDigitC, Bool.and_eq_true, decide_eq_true_eq] using hc
  have hlow : lower c = c := by unfold lower; rw [if_neg (by omega)]
  obtain ⟨t, ht⟩ : ∃ t, withFrac (c :: cs) fp ++ tail = c :: t := by
    unfold withFrac
    split
    · exact ⟨cs ++ tail, rfl⟩
    · exact ⟨cs ++ '.' :: fp ++ tail, rfl⟩
  have hhead : ∀ x, t.head? = some x → lower x ≠ 'x' := by
    have hdig : ∀ x, isDigitC x = true → lower x ≠ 'x' := by
      intro x hx
      have hd : 48 ≤ x.toNat ∧ x.toNat ≤ 57 := by simpa [isDigitC, Bool.and_eq_true, decide_eq_true_eq] using hx
      unfold lower; rw [if_neg (by omega)]
      rintro rfl
      revert hd; decide
    have hx : ∀ x, lower x = 'x' → x = 'x' ∨ x = 'X' := by
      intro x hx
      unfold lower at hx
      split at hx
      · rename_i hr
        right
        have h5 := congrArg Char.toNat hx
        have h6 : (Char.ofNat (x.toNat + 32)).toNat = x.toNat + 32 := by
          have : ∀ n, n < 91 → (Char.ofNat (n + 32)).toNat = n + 32 := by decide +kernel
          exact this _ (by omega)
        rw [h6] at h5
        have h7 : x.toNat = 'X'.toNat := by
          have e1 : 'x'.toNat = 120 := by decide
          have e2 : 'X'.toNat = 88 := by decide
          omega
        rw [← Char.ofNat_toNat x, h7, Char.ofNat_toNat]
      · left; exact hx
    intro x hxt
    have hmem : x ∈ cs ∨ x = '.' ∨ tail.head? = some x := by
      unfold withFrac at ht
      split at ht
      · have : t = cs ++ tail := (List.cons.inj ht).2.symm
        subst this
        cases cs with
        | nil => right; right; simpa using hxt
        | cons a as => left; simp at hxt; simp [hxt]
      · have : t = cs ++ '.' :: fp ++ tail := (List.cons.inj ht).2.symm
        subst this
        cases cs with
        | nil => right; left; simp at hxt; exact hxt.symm
        | cons a as => left; simp at hxt; simp [hxt]
    rcases hmem with h | rfl | h
    · exact hdig x (h2 x (by simp [h]))
    · decide
    · intro hl
      rcases hx x hl with rfl | rfl
      · exact (h4 _ h).2.2.1 rfl
      · exact (h4 _ h).2.2.2 rfl
  have hmag : readMag (c :: t) = readReal isDigitC 10 10 ['e', 'E'] (c :: t) := by
    unfold readMag
    split
    · rename_i x t' heq
      rw [if_neg (hhead x (by rw [(List.cons.inj heq).2]; rfl))]
    · rfl
  have e1 := dropSpace_sign (neg := neg) (cs := t) (not_space_of_digit hc)
  have e2 : splitSign (signText neg ++ c :: t) = (neg, c :: t) := by
    apply splitSign_signText
    refine ⟨c, t, rfl, ?_, ?_⟩ <;> rintro rfl <;> revert hd <;> decide
  have e3 : ∀ w : Char, 57 < w.toNat → ∀ ws : Str, ((c :: t).take 3).map lower ≠ w :: ws := by
    intro w hw ws h
    simp only [List.take_succ_cons, List.map_cons, List.cons.injEq, hlow] at h
    rw [← h.1] at hw
    omega
  rw [ht]
  unfold strtod
  simp only [e1, e2]
  rw [if_neg (show ¬ _ = "inf".toList from e3 'i' (by decide) _), if_neg (show ¬ _ = "nan".toList from e3 'n' (by decide) _), hmag,
    ← ht, hreal]
  rfl

/-- The error of reading a `double`. -/
theorem rnd64_close {x : Rat} (hx : (2 : Rat) ^ (-1000 : Int) ≤ x) : |rndVal binary64 x - x| ≤ x / 2 ^ 53 := by
  have hx0 : 0 < x := lt_of_lt_of_le (two_pos' _) hx
  have hlog : -1000 ≤ Int.log 2 x := by
    have h := lt_of_le_of_lt hx (lt_log2 x)
    have := two_lt_iff.1 h
    omega
  have he : ulpExp binary64 x = Int.log 2 x - 52 := by unfold ulpExp; simp only [binary64]; omega
  have h1 := log2_le x hx0
  have hu := two_pos' (ulpExp binary64 x)
  unfold rndVal
  have hc := rhe_close (x / 2 ^ ulpExp binary64 x)
  rw [show (rhe (x / 2 ^ ulpExp binary64 x) : Rat) * 2 ^ ulpExp binary64 x - x =
    ((rhe (x / 2 ^ ulpExp binary64 x) : Rat) - x / 2 ^ ulpExp binary64 x) * 2 ^ ulpExp binary64 x by field_simp, abs_mul, abs_of_pos hu]
  have h2 := mul_le_mul_of_nonneg_right hc hu.le
  have h3 : (2 : Rat) ^ ulpExp binary64 x * 2 ^ 52 = 2 ^ Int.log 2 x := by
    have := two_add (Int.log 2 x - 52) 52
    rw [show Int.log 2 x - 52 + ((52 : Nat) : Int) = Int.log 2 x by push_cast; ring] at this
    rw [he, this]
  have h4 : (1 : Rat) / 2 * 2 ^ ulpExp binary64 x ≤ x / 2 ^ 53 := by
    rw [le_div_iff₀ (by norm_num)]
    have : (2 : Rat) ^ 53 = 2 * 2 ^ 52 := by norm_num
    rw [this]
    nlinarith
  linarith

theorem rnd64_finite {x : Rat} (hx : 0 < x) (h : x ≤ 2 ^ 100) : rnd binary64 x = some (rndVal binary64 x) := by
  refine rnd_finite binary64_ok hx (h.trans ?_)
  unfold maxFin
  simp only [binary64]
  have : (2 : Rat) ^ (100 : Int) ≤ 2 ^ ((1024 : Int) - (53 : Nat)) := two_mono (by decide)
  have h2 := two_pos' ((1024 : Int) - (53 : Nat))
  have e : (2 : Rat) ^ (100 : Int) = 2 ^ 100 := by exact_mod_cast zpow_natCast (2 : Rat) 100
  rw [e] at this
  nlinarith

end Num

namespace TimeText
open Num Spec

theorem natToStr_digits (n : Nat) : ∀ c ∈ natToStr n, isDigitC c = true := (natToStr_spec n).1
theorem natToStr_ne (n : Nat) : natToStr n ≠ [] := (natToStr_spec n).2.1

/-- Digits around the point of `%.*f`. -/
theorem fixedMag_text (dec : Nat) (hdec : 0 < dec) (x : Rat) : ∃ ip fp, fixedMag dec x = withFrac ip fp ∧ ip ≠ [] ∧
    (∀ c ∈ ip, isDigitC c = true) ∧ (∀ c ∈ fp, isDigitC c = true) ∧ fp.length = dec ∧
    digsVal 10 (ip ++ fp) = (rhe (x * 10 ^ dec)).toNat := by
  unfold fixedMag
  simp only
  set n := (rhe (x * 10 ^ dec)).toNat
  set ds := List.replicate (dec + 1 - (natToStr n).length) '0' ++ natToStr n with hds
  have hlen : dec + 1 ≤ ds.length := by rw [hds, List.length_append, List.length_replicate]; omega
  have hdig : ∀ c ∈ ds, isDigitC c = true := by
    intro c hc
    rcases List.mem_append.1 hc with hc | hc
    · rw [(List.mem_replicate.1 hc).2]; decide
    · exact natToStr_digits n c hc
  have hfl : (ds.drop (ds.length - dec)).length = dec := by rw [List.length_drop]; omega
  refine ⟨ds.take (ds.length - dec), ds.drop (ds.length - dec), ?_, ?_, fun c hc => hdig c (List.mem_of_mem_take hc),
    fun c hc => hdig c (List.mem_of_mem_drop hc), hfl, ?_⟩
  · rw [if_neg hdec.ne']
    unfold withFrac
    rw [if_neg]
    intro h; rw [h] at hfl; simp at hfl; omega
  · intro h
    have := congrArg List.length h
    rw [List.length_take, List.length_nil] at this
    omega
  · rw [List.take_append_drop, hds, digsVal_append, digsVal_zeros, digsVal_natToStr]
    omega

theorem pad2_spec {n : Int} (h0 : 0 ≤ n) (h : n < 100) : (pad2 n).length = 2 ∧ (∀ c ∈ pad2 n, isDigitC c = true) ∧
    numVal (pad2 n) = n.toNat := by
  have e : intToStr n = natToStr n.toNat := by
    unfold intToStr; rw [if_neg (by omega)]; congr 1; omega
  unfold pad2
  simp only [e, if_pos h0]
  have hlen : (natToStr n.toNat).length ≤ 2 := by
    by_cases h10 : n < 10
    · rw [natToStr_length (k := 0) (by omega) (by left; rfl)]; omega
    · rw [natToStr_length (k := 1) (by omega) (by right; omega)]
  have hdig : ∀ c ∈ List.replicate (2 - (natToStr n.toNat).length) '0' ++ natToStr n.toNat, isDigitC c = true := by
    intro c hc
    rcases List.mem_append.1 hc with hc | hc
    · rw [(List.mem_replicate.1 hc).2]; decide
    · exact natToStr_digits _ c hc
  refine ⟨by rw [List.length_append, List.length_replicate]; omega, hdig, ?_⟩
  rw [← digsVal_numVal hdig, digsVal_append, digsVal_zeros, digsVal_natToStr]
  omega

theorem trunc_seconds {ns : Int} (h : 0 ≤ ns) : Time.trunc (seconds ns) = ns / 10 ^ 9 := by
  have h0 : 0 ≤ seconds ns := by unfold seconds; exact div_nonneg (by exact_mod_cast h) (by norm_num)
  unfold Time.trunc
  rw [if_pos h0]
  show ⌊seconds ns⌋ = _
  obtain ⟨q, hq⟩ : ∃ q, q = ns / 10 ^ 9 := ⟨_, rfl⟩
  rw [← hq]
  have h1 : q * 1000000000 ≤ ns := by omega
  have h2 : ns < (q + 1) * 1000000000 := by omega
  have h1' : (q : Rat) * 1000000000 ≤ ns := by exact_mod_cast h1
  have h2' : (ns : Rat) < (q + 1) * 1000000000 := by exact_mod_cast h2
  rw [Int.floor_eq_iff]
  unfold seconds
  constructor
  · rw [le_div_iff₀ (by norm_num)]; linarith
  · rw [div_lt_iff₀ (by norm_num)]; linarith

theorem trunc_seconds_neg {ns : Int} (h : ns ≤ 0) : Time.trunc (seconds ns) = -(-ns / 10 ^ 9) := by
  rcases eq_or_lt_of_le h with rfl | h
  · rw [trunc_seconds (le_refl 0)]; rfl
  have e : seconds ns = -seconds (-ns) := by unfold seconds; push_cast; ring
  have h1 : ¬ 0 ≤ seconds ns := by
    unfold seconds
    rw [not_le]
    exact div_neg_of_neg_of_pos (by exact_mod_cast h) (by norm_num)
  have := trunc_seconds (ns := -ns) (by omega)
  unfold Time.trunc at this ⊢
  rw [if_neg h1]
  have h2 : 0 ≤ seconds (-ns) := by rw [e] at h1; linarith
  rw [if_pos h2] at this
  rw [e, neg_neg, this]

theorem intToStr_nat {n : Int} (h : 0 ≤ n) : intToStr n = natToStr n.toNat := by
  unfold intToStr; rw [if_neg (by omega)]; congr 1; omega

/-- Hours, minutes and seconds. -/
theorem toStr_hours {ns : Int} (dec : Int) (hide : Rat) (h1 : 3600 ≤ ns / 10 ^ 9) (h2 : ns / 10 ^ 9 < 2 ^ 31) :
    toStr ns dec hide = .ok (natToStr (ns / 10 ^ 9 / 3600).toNat ++
      ':' :: (pad2 (ns / 10 ^ 9 % 3600 / 60) ++ ':' :: pad2 (ns / 10 ^ 9 % 60))) := by
  have hns : 0 ≤ ns := by omega
  unfold toStr
  dsimp only
  rw [trunc_seconds hns]
  set S := ns / 10 ^ 9
  have e1 : S.tdiv 3600 = S / 3600 := Int.tdiv_eq_ediv_of_nonneg (by omega)
  have e2 : (S - S / 3600 * 3600).tdiv 60 = S % 3600 / 60 := by
    rw [Int.tdiv_eq_ediv_of_nonneg (by omega)]; omega
  have e3 : S - S / 3600 * 3600 - S % 3600 / 60 * 60 = S % 60 := by omega
  simp only [e1]
  have hpos : S / 3600 > 0 := by omega
  rw [if_neg (by omega)]
  simp only [hpos, if_true, e2, true_or, e3]
  rw [if_neg (by simp), intToStr_nat (by omega)]
  simp

/-- Minutes and seconds. -/
theorem toStr_minutes {ns : Int} (dec : Int) (hide : Rat) (h1 : 60 ≤ ns / 10 ^ 9) (h2 : ns / 10 ^ 9 < 3600) :
    toStr ns dec hide = .ok (natToStr (ns / 10 ^ 9 / 60).toNat ++ ':' :: pad2 (ns / 10 ^ 9 % 60)) := by
  have hns : 0 ≤ ns := by omega
  unfold toStr
  dsimp only
  rw [trunc_seconds hns]
  set S := ns / 10 ^ 9
  have e1 : S.tdiv 3600 = 0 := by rw [Int.tdiv_eq_ediv_of_nonneg (by omega)]; omega
  have e2 : S.tdiv 60 = S / 60 := Int.tdiv_eq_ediv_of_nonneg (by omega)
  have e3 : S - S / 60 * 60 = S % 60 := by omega
  rw [if_neg (by omega)]
  have hpos : S / 60 > 0 := by omega
  simp only [e1, gt_iff_lt, lt_irrefl, if_false, e2, hpos, or_true, if_true, e3]
  rw [intToStr_nat (by omega)]
  simp

/-- Whole seconds behind zero minutes. -/
theorem toStr_seconds {ns : Int} {dec : Int} {hide : Rat} (h0 : 0 ≤ ns) (h1 : ns / 10 ^ 9 < 60)
    (h : dec ≤ 0 ∨ hide ≤ seconds ns) : toStr ns dec hide = .ok ('0' :: ':' :: pad2 (ns / 10 ^ 9)) := by
  unfold toStr
  dsimp only
  rw [trunc_seconds h0]
  set S := ns / 10 ^ 9
  have hS : 0 ≤ S := by omega
  have e1 : S.tdiv 3600 = 0 := by rw [Int.tdiv_eq_ediv_of_nonneg (by omega)]; omega
  have e2 : S.tdiv 60 = 0 := by rw [Int.tdiv_eq_ediv_of_nonneg (by omega)]; omega
  rw [if_neg (by omega)]
  simp only [e1, e2, gt_iff_lt, lt_irrefl, or_false, if_false, ge_iff_le, h, if_true, List.nil_append]

/-- Seconds with decimals, for all negative times too. -/
theorem toStr_decimals {ns : Int} {dec : Int} {hide : Rat} (h0 : -(2 ^ 31) * 10 ^ 9 ≤ ns) (h1 : ns < 60 * 10 ^ 9)
    (h : 0 < dec) (hh : seconds ns < hide) : toStr ns dec hide = .ok (fixed dec.toNat (seconds ns)) := by
  have hS : ∃ S, Time.trunc (seconds ns) = S ∧ S < 60 ∧ -2 ^ 31 ≤ S := by
    rcases le_total 0 ns with hn | hn
    · exact ⟨_, trunc_seconds hn, by omega, by omega⟩
    · exact ⟨_, trunc_seconds_neg hn, by omega, by omega⟩
  obtain ⟨S, e, hS1, hS2⟩ := hS
  unfold toStr
  dsimp only
  rw [e, if_neg (by omega)]
  have e1 : ¬ S.tdiv 3600 > 0 := by
    rcases le_total 0 S with hn | hn
    · rw [Int.tdiv_eq_ediv_of_nonneg hn]; omega
    · have : S.tdiv 3600 ≤ 0 := by
        have h1 := Int.neg_tdiv (a := -S) (b := 3600)
        rw [neg_neg] at h1
        have h2 : 0 ≤ (-S).tdiv 3600 := Int.tdiv_nonneg (by omega) (by omega)
        omega
      omega
  have e2 : ¬ S.tdiv 60 > 0 := by
    rcases le_total 0 S with hn | hn
    · rw [Int.tdiv_eq_ediv_of_nonneg hn]; omega
    · have : S.tdiv 60 ≤ 0 := by
        have h1 := Int.neg_tdiv (a := -S) (b := 60)
        rw [neg_neg] at h1
        have h2 : 0 ≤ (-S).tdiv 60 := Int.tdiv_nonneg (by omega) (by omega)
        omega
      omega
  have e3 : ¬ (dec ≤ 0 ∨ hide ≤ seconds ns) := by
    rintro (h' | h')
    · omega
    · linarith
  simp only [if_neg e1, if_neg e2, e1, e2, or_self, if_false, ge_iff_le, if_neg e3, List.nil_append]

end TimeText
end Xo
