import Verif.Lemmas.NumText

/-! Lemmas about reading the texts that `%g` writes. -/
namespace Xo
namespace Num
open Spec

theorem digVal_digit {c : Char} (h : isDigitC c = true) : digVal c = c.toNat - '0'.toNat := by
  simp only [isDigitC, Bool.and_eq_true, decide_eq_true_eq] at h
  unfold digVal
  rw [if_pos h.2]
  rfl

theorem foldl_digs (base : Nat) (ds : Str) : ∀ a : Nat,
    ds.foldl (fun a c => a * base + digVal c) a = a * base ^ ds.length + digsVal base ds := by
  induction ds with
  | nil => intro a; simp [digsVal]
  | cons c ds ih =>
    intro a
    unfold digsVal
    simp only [List.foldl_cons, List.length_cons]
    rw [ih, ih (0 * base + digVal c)]
    ring

theorem digsVal_append (base : Nat) (a b : Str) : digsVal base (a ++ b) = digsVal base a * base ^ b.length + digsVal base b := by
  conv_lhs => unfold digsVal
  rw [List.foldl_append, foldl_digs]
  rfl

theorem digsVal_zeros (base n : Nat) : digsVal base (List.replicate n '0') = 0 := by
  induction n with
  | zero => rfl
  | succ n ih =>
    rw [List.replicate_succ, show '0' :: List.replicate n '0' = ['0'] ++ List.replicate n '0' from rfl, digsVal_append, ih]
    simp [digsVal, digVal]

theorem digsVal_numVal {ds : Str} (h : ∀ c ∈ ds, isDigitC c = true) : digsVal 10 ds = numVal ds := by
  unfold digsVal numVal
  induction ds using List.reverseRecOn with
  | nil => rfl
  | append_singleton ds c ih =>
    rw [List.foldl_append, List.foldl_append, ih fun d hd => h d (by simp [hd])]
    simp only [List.foldl_cons, List.foldl_nil]
    rw [digVal_digit (h c (by simp))]

theorem digsVal_natToStr (n : Nat) : digsVal 10 (natToStr n) = n := by
  obtain ⟨h1, _, h3⟩ := natToStr_spec n
  rw [digsVal_numVal h1, h3]

theorem digitsRev_length (fuel : Nat) : ∀ n k, n < fuel → n < 10 ^ (k + 1) → (k = 0 ∨ 10 ^ k ≤ n) →
    (digitsRev fuel n).length = k + 1 := by
  induction fuel with
  | zero => intro n k h; omega
  | succ fuel ih =>
    intro n k hn h1 h2
    rw [digitsRev]
    cases k with
    | zero =>
      have : n / 10 = 0 := by omega
      simp [this]
    | succ k =>
      have h2 : 10 ^ (k + 1) ≤ n := by omega
      have h3 : 10 ^ (k + 1 + 1) = 10 * 10 ^ (k + 1) := by ring
      have h4 : 10 ^ (k + 1) = 10 * 10 ^ k := by ring
      have hp : 0 < 10 ^ k := by positivity
      rw [if_neg (by omega), List.length_cons, ih (n / 10) k (by omega) (by omega) (by right; omega)]

theorem natToStr_length {n k : Nat} (h1 : n < 10 ^ (k + 1)) (h2 : k = 0 ∨ 10 ^ k ≤ n) : (natToStr n).length = k + 1 := by
  unfold natToStr
  rw [List.length_reverse]
  exact digitsRev_length _ _ _ (by omega) h1 h2

theorem strip_split (ds : Str) : ∃ n, ds = strip ds ++ List.replicate n '0' := by
  obtain ⟨a, h⟩ : ∃ n, ds.reverse = List.replicate n '0' ++ ds.reverse.dropWhile (· = '0') := by
    generalize ds.reverse = l
    induction l with
    | nil => exact ⟨0, rfl⟩
    | cons c l ih =>
      by_cases hc : c = '0'
      · obtain ⟨n, hn⟩ := ih
        refine ⟨n + 1, ?_⟩
        simp only [hc, List.dropWhile_cons_of_pos, decide_true, List.replicate_succ, List.cons_append, ← hn]
      · exact ⟨0, by simp [hc]⟩
  refine ⟨a, ?_⟩
  unfold strip
  have := congrArg List.reverse h
  rw [List.reverse_reverse, List.reverse_append, List.reverse_replicate] at this
  exact this

theorem strip_digits {ds : Str} (h : ∀ c ∈ ds, isDigitC c = true) : ∀ c ∈ strip ds, isDigitC c = true := by
  intro c hc
  obtain ⟨n, hn⟩ := strip_split ds
  exact h c (by rw [hn]; simp [hc])

/-- The value of the digits around the point is the same with the zeros at the end. -/
theorem strip_value (ip fp : Str) :
    (digsVal 10 (ip ++ strip fp) : Rat) * 10 ^ (-((strip fp).length : Int)) =
    (digsVal 10 (ip ++ fp) : Rat) * 10 ^ (-(fp.length : Int)) := by
  obtain ⟨n, hn⟩ := strip_split fp
  have e : ip ++ fp = (ip ++ strip fp) ++ List.replicate n '0' := by
    conv_lhs => rw [hn]
    simp
  have l : fp.length = (strip fp).length + n := by
    conv_lhs => rw [hn]
    simp
  rw [e, digsVal_append 10 (ip ++ strip fp), digsVal_zeros, l]
  push_cast
  rw [List.length_replicate, neg_add, zpow_add₀ (by norm_num), zpow_neg, zpow_neg, zpow_natCast, zpow_natCast]
  have : (10 : Rat) ^ n ≠ 0 := by positivity
  field_simp
  ring

theorem takeWhile_digits {ds rest : Str} (h : ∀ c ∈ ds, isDigitC c = true)
    (hr : ∀ c, rest.head? = some c → isDigitC c = false) :
    (ds ++ rest).takeWhile isDigitC = ds ∧ (ds ++ rest).dropWhile isDigitC = rest := by
  induction ds with
  | nil =>
    cases rest with
    | nil => simp
    | cons c cs => simp [hr c rfl]
  | cons d ds ih =>
    have := ih fun c hc => h c (by simp [hc])
    simp [h d (by simp), this]

/-- Reading digits, a point, digits and the rest. -/
theorem readReal_text {ip fp tail : Str} (h1 : ip ≠ []) (h2 : ∀ c ∈ ip, isDigitC c = true)
    (h3 : ∀ c ∈ fp, isDigitC c = true) (h4 : ∀ c, tail.head? = some c → isDigitC c = false ∧ c ≠ '.') :
    readReal isDigitC 10 10 ['e', 'E'] (withFrac ip fp ++ tail) =
      some ((digsVal 10 (ip ++ fp) : Rat) * 10 ^ (-(fp.length : Int)) * 10 ^ readExp ['e', 'E'] tail) := by
  unfold withFrac
  by_cases hf : fp = []
  · subst hf
    rw [if_pos rfl]
    obtain ⟨e1, e2⟩ := takeWhile_digits h2 (rest := tail) fun c hc => (h4 c hc).1
    unfold readReal
    simp only [e1, e2]
    split
    · rename_i t
      exact absurd rfl (h4 '.' rfl).2
    · rw [if_neg (by simp [h1])]
      norm_num
  · rw [if_neg hf]
    obtain ⟨e1, e2⟩ := takeWhile_digits h2 (rest := '.' :: (fp ++ tail)) (by intro c hc; simp at hc; subst hc; decide)
    obtain ⟨e3, e4⟩ := takeWhile_digits h3 (rest := tail) fun c hc => (h4 c hc).1
    unfold readReal
    simp only [List.append_assoc, List.cons_append, e1, e2, e3, e4]
    rw [if_neg (by simp [h1])]
    norm_num

theorem readExp_expText (e : Int) : readExp ['e', 'E'] ('e' :: expText e) = e := by
  have key : ∀ ds : Str, (∀ c ∈ ds, isDigitC c = true) → ds.takeWhile isDigitC = ds := by
    intro ds h
    have := (takeWhile_digits h (rest := []) (by simp)).1
    simpa using this
  obtain ⟨h1, _, _⟩ := natToStr_spec e.natAbs
  have hd : ∀ c ∈ (if e.natAbs < 10 then '0' :: natToStr e.natAbs else natToStr e.natAbs), isDigitC c = true := by
    intro c hc
    split at hc
    · rcases List.mem_cons.1 hc with rfl | hc
      · decide
      · exact h1 c hc
    · exact h1 c hc
  have hv : digsVal 10 (if e.natAbs < 10 then '0' :: natToStr e.natAbs else natToStr e.natAbs) = e.natAbs := by
    split
    · rw [show '0' :: natToStr e.natAbs = ['0'] ++ natToStr e.natAbs from rfl, digsVal_append, digsVal_natToStr]
      simp [digsVal, digVal]
    · exact digsVal_natToStr _
  unfold readExp
  simp only [List.mem_cons, true_or, if_true]
  unfold expText
  by_cases he : e < 0
  · simp only [he, if_true, splitSign]
    rw [key _ hd, hv]
    omega
  · simp only [he, if_false, splitSign]
    rw [key _ hd, hv]
    simp only [Bool.false_eq_true, if_false]
    omega

/-- The six digits are six characters. -/
theorem sci_text {x : Rat} (hx : 0 < x) : (natToStr (sci x).1.toNat).length = 6 ∧
    (∀ c ∈ natToStr (sci x).1.toNat, isDigitC c = true) ∧
    ((digsVal 10 (natToStr (sci x).1.toNat) : Nat) : Rat) = ((sci x).1 : Rat) := by
  obtain ⟨h1, h2, _⟩ := sci_cases x hx
  refine ⟨natToStr_length (k := 5) (by omega) (by right; omega), (natToStr_spec _).1, ?_⟩
  rw [digsVal_natToStr]
  have : (((sci x).1.toNat : Nat) : Int) = (sci x).1 := by omega
  exact_mod_cast congrArg (Int.cast (R := Rat)) this

/-- The text of a magnitude is read as the value of its digits. -/
theorem readReal_gMag {x : Rat} (hx : 0 ≤ x) : readReal isDigitC 10 10 ['e', 'E'] (gMag x) = some (roundG x) := by
  rcases eq_or_lt_of_le hx with rfl | hx
  · have : gMag 0 = withFrac ['0'] [] ++ [] := by simp [gMag, withFrac]
    rw [this, readReal_text (by simp) (by decide) (by simp) (by simp)]
    simp [digsVal, digVal, roundG]
  obtain ⟨l6, hdig, hval⟩ := sci_text hx
  unfold gMag roundG
  rw [if_neg hx.ne', if_neg hx.ne']
  simp only
  set e := (sci x).2
  set ds := natToStr (sci x).1.toNat with hds
  have htake : ∀ n, ∀ c ∈ ds.take n, isDigitC c = true := fun n c hc => hdig c (List.mem_of_mem_take hc)
  have hdrop : ∀ n, ∀ c ∈ ds.drop n, isDigitC c = true := fun n c hc => hdig c (List.mem_of_mem_drop hc)
  split
  · rw [readReal_text (by intro h; have := congrArg List.length h; simp [l6] at this) (htake 1)
      (strip_digits (hdrop 1)) (by intro c hc; simp at hc; subst hc; decide)]
    rw [strip_value, List.take_append_drop, hval, readExp_expText, List.length_drop, l6, mul_assoc,
      ← zpow_add₀ (by norm_num : (10 : Rat) ≠ 0)]
    congr 2
    push_cast; ring
  · split
    · have hz : ∀ c ∈ List.replicate (-e - 1).toNat '0' ++ ds, isDigitC c = true := by
        intro c hc
        rcases List.mem_append.1 hc with hc | hc
        · rw [(List.mem_replicate.1 hc).2]; decide
        · exact hdig c hc
      have := readReal_text (ip := ['0']) (fp := strip (List.replicate (-e - 1).toNat '0' ++ ds)) (tail := [])
        (by simp) (by decide) (strip_digits hz) (by simp)
      rw [List.append_nil] at this
      rw [this, strip_value]
      have e0 : ['0'] ++ (List.replicate (-e - 1).toNat '0' ++ ds) = List.replicate ((-e - 1).toNat + 1) '0' ++ ds := by
        rw [List.replicate_succ]; simp
      rw [e0, digsVal_append, digsVal_zeros, zero_mul, zero_add, hval]
      simp only [readExp, List.length_append, List.length_replicate, l6, zpow_zero, mul_one]
      congr 3
      push_cast
      omega
    · have := readReal_text (ip := ds.take (e + 1).toNat) (fp := strip (ds.drop (e + 1).toNat)) (tail := [])
        (by intro h; have := congrArg List.length h; simp [l6] at this; omega) (htake _) (strip_digits (hdrop _)) (by simp)
      rw [List.append_nil] at this
      rw [this, strip_value, List.take_append_drop, hval, List.length_drop, l6]
      simp only [readExp, zpow_zero, mul_one]
      congr 3
      omega

/-- The characters of the text of a magnitude. -/
theorem gMag_chars {x : Rat} (hx : 0 ≤ x) : (∃ c cs, gMag x = c :: cs ∧ isDigitC c = true) ∧
    ∀ c ∈ gMag x, isDigitC c = true ∨ c = '.' ∨ c = 'e' ∨ c = '+' ∨ c = '-' := by
  rcases eq_or_lt_of_le hx with rfl | hx
  · simp only [gMag, if_true]
    exact ⟨⟨'0', [], rfl, by decide⟩, by simp [show isDigitC '0' = true by decide]⟩
  obtain ⟨l6, hdig, _⟩ := sci_text hx
  have hfrac : ∀ ip fp : Str, ip ≠ [] → (∀ c ∈ ip, isDigitC c = true) → (∀ c ∈ fp, isDigitC c = true) →
      (∃ c cs, withFrac ip fp = c :: cs ∧ isDigitC c = true) ∧ ∀ c ∈ withFrac ip fp, isDigitC c = true ∨ c = '.' := by
    intro ip fp h1 h2 h3
    obtain ⟨a, as, rfl⟩ := List.exists_cons_of_ne_nil h1
    unfold withFrac
    split
    · exact ⟨⟨a, as, rfl, h2 a (by simp)⟩, fun c hc => Or.inl (h2 c hc)⟩
    · refine ⟨⟨a, as ++ '.' :: fp, rfl, h2 a (by simp)⟩, ?_⟩
      intro c hc
      rcases List.mem_append.1 hc with hc | hc
      · exact Or.inl (h2 c hc)
      · rcases List.mem_cons.1 hc with rfl | hc
        · right; rfl
        · left; exact h3 c hc
  unfold gMag
  rw [if_neg hx.ne']
  simp only
  set e := (sci x).2
  set ds := natToStr (sci x).1.toNat with hds
  have htake : ∀ n, ∀ c ∈ ds.take n, isDigitC c = true := fun n c hc => hdig c (List.mem_of_mem_take hc)
  have hdrop : ∀ n, ∀ c ∈ ds.drop n, isDigitC c = true := fun n c hc => hdig c (List.mem_of_mem_drop hc)
  split
  · obtain ⟨⟨c, cs, h1, h2⟩, h3⟩ := hfrac (ds.take 1) (strip (ds.drop 1))
      (by intro h; have := congrArg List.length h; simp [l6] at this) (htake 1) (strip_digits (hdrop 1))
    refine ⟨⟨c, cs ++ 'e' :: expText e, by rw [h1]; rfl, h2⟩, ?_⟩
    intro c hc
    rcases List.mem_append.1 hc with hc | hc
    · rcases h3 c hc with h | h
      · exact Or.inl h
      · exact Or.inr (Or.inl h)
    · rcases List.mem_cons.1 hc with rfl | hc
      · simp
      · unfold expText at hc
        rcases List.mem_cons.1 hc with hc | hc
        · split at hc <;> subst hc <;> simp
        · left
          split at hc
          · rcases List.mem_cons.1 hc with rfl | hc
            · decide
            · exact (natToStr_spec _).1 c hc
          · exact (natToStr_spec _).1 c hc
  · split
    · obtain ⟨h1, h3⟩ := hfrac ['0'] (strip (List.replicate (-e - 1).toNat '0' ++ ds)) (by simp) (by decide)
        (strip_digits (by
          intro c hc
          rcases List.mem_append.1 hc with hc | hc
          · rw [(List.mem_replicate.1 hc).2]; decide
          · exact hdig c hc))
      exact ⟨h1, fun c hc => (h3 c hc).imp id Or.inl⟩
    · obtain ⟨h1, h3⟩ := hfrac (ds.take (e + 1).toNat) (strip (ds.drop (e + 1).toNat))
        (by intro h; have := congrArg List.length h; simp [l6] at this; omega) (htake _) (strip_digits (hdrop _))
      exact ⟨h1, fun c hc => (h3 c hc).imp id Or.inl⟩

theorem readMag_gMag {x : Rat} (hx : 0 ≤ x) : readMag (gMag x) = some (roundG x) := by
  have hr := readReal_gMag hx
  obtain ⟨_, hc⟩ := gMag_chars hx
  unfold readMag
  split
  · rename_i c t heq
    rw [if_neg]
    · exact hr
    · intro h
      have hm := hc c (by rw [heq]; simp)
      rcases hm with h' | rfl | rfl | rfl | rfl
      · simp only [isDigitC, Bool.and_eq_true, decide_eq_true_eq] at h'
        unfold lower at h
        rw [if_neg (by omega)] at h
        subst h
        exact absurd h' (by decide)
      all_goals revert h; decide
  · exact hr

theorem splitSign_signText {neg : Bool} {s : Str} (h : ∃ c cs, s = c :: cs ∧ c ≠ '-' ∧ c ≠ '+') :
    splitSign (signText neg ++ s) = (neg, s) := by
  obtain ⟨c, cs, rfl, h1, h2⟩ := h
  cases neg
  · simp only [signText, Bool.false_eq_true, if_false, List.nil_append]
    unfold splitSign
    split
    · rename_i heq; exact absurd (List.cons.inj heq).1 h1
    · rename_i heq; exact absurd (List.cons.inj heq).1 h2
    · rfl
  · rfl

theorem dropSpace_sign {neg : Bool} {c : Char} {cs : Str} (h : isSpaceC c = false) :
    (signText neg ++ c :: cs).dropWhile isSpaceC = signText neg ++ c :: cs := by
  cases neg
  · simp [signText, h]
  · simp [signText, show isSpaceC '-' = false by decide]

/-- Reading the text of a finite number: the number written, rounded to the format. -/
theorem strtod_toStr_fin (f : Fmt) (neg : Bool) {x : Rat} (hx : 0 ≤ x) :
    strtod f (toStr (.fin neg x)) = some (roundFl f neg (roundG x)) := by
  obtain ⟨⟨c, cs, h1, h2⟩, hall⟩ := gMag_chars hx
  have hsp : isSpaceC c = false := not_space_of_digit h2
  have hd : 48 ≤ c.toNat ∧ c.toNat ≤ 57 := by simpa [isDigitC, Bool.and_eq_true, decide_eq_true_eq] using h2
  have hlow : lower c = c := by unfold lower; rw [if_neg (by omega)]
  have e1 : (toStr (.fin neg x)).dropWhile isSpaceC = signText neg ++ gMag x := by
    show (signText neg ++ gMag x).dropWhile isSpaceC = _
    rw [h1]
    exact dropSpace_sign hsp
  have e2 : splitSign (signText neg ++ gMag x) = (neg, gMag x) := by
    apply splitSign_signText
    refine ⟨c, cs, h1, ?_, ?_⟩ <;> rintro rfl <;> revert hd <;> decide
  have e3 : ∀ w : Char, 57 < w.toNat → ∀ ws : Str, ((gMag x).take 3).map lower ≠ w :: ws := by
    intro w hw ws h
    rw [h1] at h
    simp only [List.take_succ_cons, List.map_cons, List.cons.injEq, hlow] at h
    rw [← h.1] at hw
    omega
  unfold strtod
  simp only [e1, e2]
  rw [if_neg (show ¬ _ = "inf".toList from e3 'i' (by decide) _), if_neg (show ¬ _ = "nan".toList from e3 'n' (by decide) _), readMag_gMag hx]
  rfl

end Num
end Xo
