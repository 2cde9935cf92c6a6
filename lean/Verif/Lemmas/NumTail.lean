import Verif.Lemmas.NumRead

/-! Reading a number that has something behind it. -/
namespace Xo
namespace Num

/-- A text behind a number that does not continue it. -/
def Stop (tail : Str) : Prop :=
  (∀ c, tail.head? = some c → isDigitC c = false ∧ c ≠ 'x' ∧ c ≠ 'X' ∧ c ≠ 'e' ∧ c ≠ 'E') ∧
  ∀ r, tail = '.' :: r → ∀ c, r.head? = some c → isDigitC c = false ∧ c ≠ 'e' ∧ c ≠ 'E'

theorem stop_nil : Stop [] := ⟨by simp, by simp⟩
theorem stop_blank (r : Str) : Stop (' ' :: r) := ⟨by intro c hc; simp at hc; subst hc; decide, by simp⟩
theorem stop_tab (r : Str) : Stop ('\t' :: r) := ⟨by intro c hc; simp at hc; subst hc; decide, by simp⟩
theorem stop_dots (r : Str) : Stop ("..".toList ++ r) :=
  ⟨by intro c hc; simp at hc; subst hc; decide, by rintro s h c hc; simp at h; subst h; simp at hc; subst hc; decide⟩

/-- The parts of the text of a magnitude. -/
theorem gMag_form {x : Rat} (hx : 0 ≤ x) : ∃ ip fp et : Str, gMag x = withFrac ip fp ++ et ∧ ip ≠ [] ∧
    (∀ c ∈ ip, isDigitC c = true) ∧ (∀ c ∈ fp, isDigitC c = true) ∧ (et = [] ∨ ∃ e, et = 'e' :: expText e) := by
  rcases eq_or_lt_of_le hx with rfl | hx
  · exact ⟨['0'], [], [], by simp [gMag, withFrac], by simp, by decide, by simp, Or.inl rfl⟩
  obtain ⟨l6, hdig, _⟩ := sci_text hx
  unfold gMag
  rw [if_neg hx.ne']
  simp only
  set e := (sci x).2
  set ds := natToStr (sci x).1.toNat with hds
  have htake : ∀ n, ∀ c ∈ ds.take n, isDigitC c = true := fun n c hc => hdig c (List.mem_of_mem_take hc)
  have hdrop : ∀ n, ∀ c ∈ ds.drop n, isDigitC c = true := fun n c hc => hdig c (List.mem_of_mem_drop hc)
  split
  · exact ⟨ds.take 1, strip (ds.drop 1), 'e' :: expText e, rfl,
      by intro h; have := congrArg List.length h; simp [l6] at this, htake 1, strip_digits (hdrop 1), Or.inr ⟨e, rfl⟩⟩
  · split
    · refine ⟨['0'], strip (List.replicate (-e - 1).toNat '0' ++ ds), [], by simp, by simp, by decide,
        strip_digits ?_, Or.inl rfl⟩
      intro c hc
      rcases List.mem_append.1 hc with hc | hc
      · rw [(List.mem_replicate.1 hc).2]; decide
      · exact hdig c hc
    · exact ⟨ds.take (e + 1).toNat, strip (ds.drop (e + 1).toNat), [], by simp,
        by intro h; have := congrArg List.length h; simp [l6] at this; omega, htake _, strip_digits (hdrop _), Or.inl rfl⟩

theorem expText_form (e : Int) : ∃ (c : Char) (ds : Str), expText e = c :: ds ∧ (c = '-' ∨ c = '+') ∧
    ∀ d ∈ ds, isDigitC d = true := by
  refine ⟨if e < 0 then '-' else '+', _, rfl, by split <;> simp, ?_⟩
  intro d hd
  split at hd
  · rcases List.mem_cons.1 hd with rfl | hd
    · decide
    · exact (natToStr_spec _).1 d hd
  · exact (natToStr_spec _).1 d hd

theorem readExp_stop {tail : Str} (h : Stop tail) : readExp ['e', 'E'] tail = 0 := by
  cases tail with
  | nil => rfl
  | cons c t =>
    obtain ⟨_, _, _, h1, h2⟩ := h.1 c rfl
    unfold readExp
    dsimp only
    rw [if_neg (by simp [h1, h2])]

theorem readExp_tail {et tail : Str} (het : et = [] ∨ ∃ e, et = 'e' :: expText e) (h : Stop tail) :
    readExp ['e', 'E'] (et ++ tail) = readExp ['e', 'E'] et := by
  rcases het with rfl | ⟨e, rfl⟩
  · rw [List.nil_append, readExp_stop h]; rfl
  · obtain ⟨c, ds, h1, h2, h3⟩ := expText_form e
    have e1 := (takeWhile_digits h3 (rest := tail) fun c hc => (h.1 c hc).1).1
    have e2 : ds.takeWhile isDigitC = ds := by
      have := (takeWhile_digits h3 (rest := []) (by simp)).1
      simpa using this
    rw [h1]
    unfold readExp
    rcases h2 with rfl | rfl <;> simp [splitSign, e1, e2]

/-- Reading digits, a fraction, an exponent and something behind them. -/
theorem readReal_tail {ip fp et tail : Str} (h1 : ip ≠ []) (h2 : ∀ c ∈ ip, isDigitC c = true)
    (h3 : ∀ c ∈ fp, isDigitC c = true) (het : et = [] ∨ ∃ e, et = 'e' :: expText e) (h : Stop tail) :
    readReal isDigitC 10 10 ['e', 'E'] (withFrac ip fp ++ (et ++ tail)) =
      some ((digsVal 10 (ip ++ fp) : Rat) * 10 ^ (-(fp.length : Int)) * 10 ^ readExp ['e', 'E'] et) := by
  have hhead : ∀ c, (et ++ tail).head? = some c → isDigitC c = false := by
    rcases het with rfl | ⟨e, rfl⟩
    · exact fun c hc => (h.1 c hc).1
    · intro c hc; simp at hc; subst hc; decide
  by_cases hf : fp = []
  · subst hf
    unfold withFrac
    rw [if_pos rfl]
    obtain ⟨e1, e2⟩ := takeWhile_digits h2 (rest := et ++ tail) hhead
    unfold readReal
    simp only [e1, e2]
    split
    · rename_i t heq
      have hte : et = [] ∧ tail = '.' :: t := by
        rcases het with rfl | ⟨e, rfl⟩
        · exact ⟨rfl, by simpa using heq⟩
        · simp at heq
      obtain ⟨rfl, rfl⟩ := hte
      have e3 : t.takeWhile isDigitC = [] ∧ t.dropWhile isDigitC = t := by
        cases t with
        | nil => exact ⟨rfl, rfl⟩
        | cons c t =>
          have := (h.2 _ rfl c rfl).1
          simp [this]
      have e4 : readExp ['e', 'E'] t = 0 := by
        cases t with
        | nil => rfl
        | cons c t =>
          obtain ⟨_, h5, h6⟩ := h.2 _ rfl c rfl
          unfold readExp
          dsimp only
          rw [if_neg (by simp [h5, h6])]
      rw [e3.1, e3.2, e4, if_neg (by simp [h1])]
      simp [readExp]
    · rw [if_neg (by simp [h1]), readExp_tail het h]
      norm_num
  · unfold withFrac
    rw [if_neg hf]
    obtain ⟨e1, e2⟩ := takeWhile_digits h2 (rest := '.' :: (fp ++ (et ++ tail))) (by intro c hc; simp at hc; subst hc; decide)
    obtain ⟨e3, e4⟩ := takeWhile_digits h3 (rest := et ++ tail) hhead
    unfold readReal
    simp only [List.append_assoc, List.cons_append] at e1 e2 e3 e4 ⊢
    simp only [e1, e2, e3, e4]
    rw [if_neg (by simp [h1]), readExp_tail het h]
    norm_num

theorem lower_x {x : Char} (hx : lower x = 'x') : x = 'x' ∨ x = 'X' := by
  unfold lower at hx
  split at hx
  · rename_i hr
    right
    have h5 := congrArg Char.toNat hx
    have h6 : (Char.ofNat (x.toNat + 32)).toNat = x.toNat + 32 := by
      have : ∀ n, n < 91 → (Char.ofNat (n + 32)).toNat = n + 32 := by decide +kernel
      exact this _ (by omega)
    rw [h6] at h5
    have h7 : x.toNat = 'X'.toNat := by
      have e1 : 'x'.toNat = 120 := by decide
      have e2 : 'X'.toNat = 88 := by decide
      omega
    rw [← Char.ofNat_toNat x, h7, Char.ofNat_toNat]
  · left; exact hx

theorem lower_digit {x : Char} (hx : isDigitC x = true) : lower x = x ∧ 48 ≤ x.toNat ∧ x.toNat ≤ 57 := by
  have hd : 48 ≤ x.toNat ∧ x.toNat ≤ 57 := by simpa [isDigitC, Bool.and_eq_true, decide_eq_true_eq] using hx
  exact ⟨by unfold lower; rw [if_neg (by omega)], hd⟩

/-- Decimal reading behind a sign. -/
theorem strtod_plain (f : Fmt) (neg : Bool) {c : Char} {t : Str} (hc : isDigitC c = true)
    (hx : ∀ x, t.head? = some x → x ≠ 'x' ∧ x ≠ 'X') :
    strtod f (signText neg ++ c :: t) = (readReal isDigitC 10 10 ['e', 'E'] (c :: t)).map (roundFl f neg) := by
  obtain ⟨hlow, hd⟩ := lower_digit hc
  have hmag : readMag (c :: t) = readReal isDigitC 10 10 ['e', 'E'] (c :: t) := by
    unfold readMag
    split
    · rename_i x t' heq
      rw [if_neg]
      intro hl
      have := hx x (by rw [(List.cons.inj heq).2]; rfl)
      rcases lower_x hl with h | h
      · exact this.1 h
      · exact this.2 h
    · rfl
  have e1 := dropSpace_sign (neg := neg) (cs := t) (not_space_of_digit hc)
  have e2 : splitSign (signText neg ++ c :: t) = (neg, c :: t) := by
    apply splitSign_signText
    refine ⟨c, t, rfl, ?_, ?_⟩ <;> rintro rfl <;> revert hd <;> decide
  have e3 : ∀ w : Char, 57 < w.toNat → ∀ ws : Str, ((c :: t).take 3).map lower ≠ w :: ws := by
    intro w hw ws h
    simp only [List.take_succ_cons, List.map_cons, List.cons.injEq, hlow] at h
    rw [← h.1] at hw
    omega
  unfold strtod
  simp only [e1, e2]
  rw [if_neg (show ¬ _ = "inf".toList from e3 'i' (by decide) _), if_neg (show ¬ _ = "nan".toList from e3 'n' (by decide) _), hmag]

/-- What stands behind a written number does not change how it is read. -/
theorem strtod_toStr_tail (f : Fmt) (v : Fl) (hv : ∀ neg x, v = .fin neg x → 0 ≤ x) {tail : Str} (h : Stop tail) :
    strtod f (toStr v ++ tail) = strtod f (toStr v) := by
  cases v with
  | nan neg => cases neg <;> simp [toStr, signText, strtod, splitSign, isSpaceC, lower] <;> rfl
  | inf neg => cases neg <;> simp [toStr, signText, strtod, splitSign, isSpaceC, lower] <;> rfl
  | fin neg x =>
    obtain ⟨ip, fp, et, h0, h1, h2, h3, het⟩ := gMag_form (hv neg x rfl)
    have key : ∀ tail, Stop tail → strtod f (signText neg ++ (withFrac ip fp ++ (et ++ tail))) =
        some (roundFl f neg ((digsVal 10 (ip ++ fp) : Rat) * 10 ^ (-(fp.length : Int)) * 10 ^ readExp ['e', 'E'] et)) := by
      intro tail h
      have hr := readReal_tail h1 h2 h3 het h
      obtain ⟨c, cs, rfl⟩ := List.exists_cons_of_ne_nil h1
      have hc : isDigitC c = true := h2 c (by simp)
      have hshape : ∃ t, withFrac (c :: cs) fp ++ (et ++ tail) = c :: t ∧ ∀ x, t.head? = some x → x ≠ 'x' ∧ x ≠ 'X' := by
        have hetx : ∀ x, (et ++ tail).head? = some x → x ≠ 'x' ∧ x ≠ 'X' := by
          rcases het with rfl | ⟨e, rfl⟩
          · exact fun x hx => ⟨(h.1 x hx).2.1, (h.1 x hx).2.2.1⟩
          · intro x hx; simp at hx; subst hx; decide
        have hdx : ∀ x ∈ cs, x ≠ 'x' ∧ x ≠ 'X' := by
          intro x hx
          have := h2 x (by simp [hx])
          constructor <;> rintro rfl <;> revert this <;> decide
        unfold withFrac
        split
        · refine ⟨cs ++ (et ++ tail), rfl, ?_⟩
          cases cs with
          | nil => exact hetx
          | cons a as => intro x hx; simp at hx; exact hdx x (by simp [hx])
        · refine ⟨cs ++ '.' :: fp ++ (et ++ tail), rfl, ?_⟩
          cases cs with
          | nil => intro x hx; simp at hx; subst hx; decide
          | cons a as => intro x hx; simp at hx; exact hdx x (by simp [hx])
      obtain ⟨t, ht, hx⟩ := hshape
      rw [ht, strtod_plain f neg hc hx, ← ht, hr]
      rfl
    have e1 := key tail h
    have e2 := key [] stop_nil
    show strtod f ((signText neg ++ gMag x) ++ tail) = strtod f (signText neg ++ gMag x)
    rw [h0]
    rw [List.append_nil] at e2
    rw [e2, ← e1]
    simp [List.append_assoc]

/-- A decimal point in a written number has a digit behind it. -/
theorem toStr_dots (v : Fl) (hv : ∀ neg x, v = .fin neg x → 0 ≤ x) (a b : Str) (h : toStr v = a ++ '.' :: b) :
    ∃ d r, b = d :: r ∧ d ≠ '.' := by
  have nodot : ∀ {s : Str}, '.' ∉ s → ∀ {a b : Str}, s ≠ a ++ '.' :: b := by
    intro s hs a b e; exact hs (by rw [e]; simp)
  cases v with
  | nan neg => exact absurd h (nodot (by cases neg <;> decide))
  | inf neg => exact absurd h (nodot (by cases neg <;> decide))
  | fin neg x =>
    obtain ⟨ip, fp, et, h0, h1, h2, h3, het⟩ := gMag_form (hv neg x rfl)
    have digdot : ∀ c, isDigitC c = true → c ≠ '.' := by rintro c hc rfl; revert hc; decide
    have n1 : '.' ∉ signText neg ++ ip := by
      intro hm
      rcases List.mem_append.1 hm with hm | hm
      · cases neg <;> revert hm <;> decide
      · exact digdot _ (h2 _ hm) rfl
    have n2 : '.' ∉ et := by
      rcases het with rfl | ⟨e, rfl⟩
      · simp
      · obtain ⟨c, ds, e1, e2, e3⟩ := expText_form e
        rw [e1]
        intro hm
        simp only [List.mem_cons] at hm
        rcases hm with hm | hm | hm
        · revert hm; decide
        · rcases e2 with rfl | rfl <;> revert hm <;> decide
        · exact digdot _ (e3 _ hm) rfl
    have n3 : '.' ∉ fp := fun hm => digdot _ (h3 _ hm) rfl
    replace h : signText neg ++ gMag x = a ++ '.' :: b := h
    rw [h0] at h
    unfold withFrac at h
    split at h
    · exact absurd h (nodot (by
        intro hm
        rw [← List.append_assoc] at hm
        rcases List.mem_append.1 hm with hm | hm
        · exact n1 hm
        · exact n2 hm))
    · rename_i hf
      have h' : (signText neg ++ ip) ++ '.' :: (fp ++ et) = a ++ '.' :: b := by rw [← h]; simp
      rcases List.append_eq_append_iff.1 h' with ⟨as, e1, e2⟩ | ⟨bs, e1, e2⟩
      · cases as with
        | nil =>
          simp at e2
          obtain ⟨d, r, e⟩ := List.exists_cons_of_ne_nil hf
          subst e
          refine ⟨d, r ++ et, by rw [← e2]; rfl, digdot d (h3 d (by simp))⟩
        | cons q as =>
          have e3 := (List.cons.inj e2).2
          exact absurd (show '.' ∈ fp ++ et by rw [e3]; simp) (by simp [n2, n3])
      · cases bs with
        | nil =>
          simp at e2
          obtain ⟨d, r, e⟩ := List.exists_cons_of_ne_nil hf
          subst e
          refine ⟨d, r ++ et, by rw [e2]; rfl, digdot d (h3 d (by simp))⟩
        | cons q bs =>
          have e3 := (List.cons.inj e2).1
          subst e3
          exact absurd (show '.' ∈ signText neg ++ ip by rw [e1]; simp) n1

end Num
end Xo
