import Verif.Lemmas.Str

/-!
C26: trimming, for any set of blank characters. The length of a string fits 64 bits.
-/
namespace Xo

namespace Spec
/-- `m` is `s` without leading and trailing blanks: `s` is blanks, then `m`, then blanks, and `m` neither begins nor
ends with a blank. -/
def Trimmed (blank s m : Str) : Prop :=
  ∃ l r, s = l ++ m ++ r ∧ (∀ c ∈ l, c ∈ blank) ∧ (∀ c ∈ r, c ∈ blank) ∧
    (∀ c, m.head? = some c → c ∉ blank) ∧ (∀ c, m.getLast? = some c → c ∉ blank)
end Spec

open Spec

theorem Spec.Trimmed.unique_aux {blank l m r l' m' r' : Str} (h : l ++ m ++ r = l' ++ m' ++ r')
    (hl : ∀ c ∈ l, c ∈ blank) (hl' : ∀ c ∈ l', c ∈ blank) (hm : ∀ c, m.head? = some c → c ∉ blank)
    (hm' : ∀ c, m'.head? = some c → c ∉ blank) (hne : m ≠ []) (hne' : m' ≠ []) : l = l' := by
  induction l generalizing l' with
  | nil =>
    cases l' with
    | nil => rfl
    | cons x l' =>
      exfalso
      cases m with
      | nil => exact hne rfl
      | cons y m =>
        simp only [List.nil_append, List.cons_append, List.cons.injEq] at h
        exact hm y rfl (h.1 ▸ hl' x (by simp))
  | cons y l ih =>
    cases l' with
    | nil =>
      exfalso
      cases m' with
      | nil => exact hne' rfl
      | cons x m' =>
        simp only [List.nil_append, List.cons_append, List.cons.injEq] at h
        exact hm' x rfl (h.1 ▸ hl y (by simp))
    | cons x l' =>
      simp only [List.cons_append, List.cons.injEq] at h
      rw [h.1, ih h.2 (fun c hc => hl c (by simp [hc])) (fun c hc => hl' c (by simp [hc]))]

/-- There is only one trimmed string. -/
theorem C26_trimmed_unique (blank s m m' : Str) (h : Trimmed blank s m) (h' : Trimmed blank s m') : m = m' := by
  obtain ⟨l, r, e, hl, hr, hh, ht⟩ := h
  obtain ⟨l', r', e', hl', hr', hh', ht'⟩ := h'
  have empty : ∀ {l r l' m' r' : Str}, s = l ++ [] ++ r → s = l' ++ m' ++ r' → (∀ c ∈ l, c ∈ blank) →
      (∀ c ∈ r, c ∈ blank) → (∀ c, m'.head? = some c → c ∉ blank) → m' = [] := by
    intro l r l' m' r' e e' hl hr hh'
    cases m' with
    | nil => rfl
    | cons y m' =>
      exfalso
      have hy : y ∈ s := by rw [e']; simp
      rw [e] at hy
      simp only [List.append_nil, List.mem_append] at hy
      exact hh' y rfl (hy.elim (hl y) (hr y))
  by_cases hm : m = []
  · subst hm; exact (empty e e' hl hr hh').symm
  · by_cases hm' : m' = []
    · subst hm'; exact empty e' e hl' hr' hh
    · have e1 : l = l' := Trimmed.unique_aux (e ▸ e') hl hl' hh hh' hm hm'
      have e2 : r.reverse = r'.reverse := by
        apply Trimmed.unique_aux (m := m.reverse) (r := l.reverse) (m' := m'.reverse) (r' := l'.reverse)
          (blank := blank)
        · have := congrArg List.reverse (e ▸ e')
          simpa using this
        · simpa using hr
        · simpa using hr'
        · simpa using ht
        · simpa using ht'
        · simpa using hm
        · simpa using hm'
      have e2 := List.reverse_injective e2
      subst e1 e2
      rw [e] at e'
      simpa using e'

/-- **C26.** `trim_str` removes exactly the outer blanks; it never fails. -/
theorem C26_trim (blank s : Str) (hs : s.length < 2 ^ 64) : ∃ m, trimStr blank s = .ok m ∧ Trimmed blank s m := by
  unfold trimStr findFirstNotOf findLastNotOf
  cases h1 : s.findIdx? (fun c => !blank.contains c) with
  | none =>
    have := findIdx?_none h1
    exact ⟨[], rfl, s, [], by simp, by simpa using this, by simp, by simp, by simp⟩
  | some i =>
    obtain ⟨a, c, b, e, hl, hc, ha⟩ := findIdx?_split h1
    simp only
    cases h2 : findLastIdx (fun c => !blank.contains c) s with
    | none =>
      have := findLastIdx_none h2 c (by rw [e]; simp)
      rw [this] at hc; cases hc
    | some j =>
      obtain ⟨a', c', b', e', hl', hc', hb'⟩ := findLastIdx_split h2
      -- the first non-blank is not behind the last one
      have hij : i ≤ j := by
        by_contra hlt
        have h3 : s[j]? = some c' := by rw [e', ← hl']; simp
        rw [e, List.getElem?_append_left (by omega)] at h3
        have := ha c' (List.mem_of_getElem? h3)
        rw [this] at hc'; cases hc'
      have hjs : j < s.length := by rw [e', ← hl']; simp
      have hn : (((1 + (j : Int)) - (i : Int)) % 2 ^ 64).toNat = j + 1 - i := by omega
      simp only
      rw [hn, substr_ok (by omega)]
      simp only
      have et : s.take (j + 1) = a' ++ [c'] := by
        rw [e', ← hl', show a' ++ c' :: b' = (a' ++ [c']) ++ b' by simp]
        rw [List.take_append_of_le_length (by simp), List.take_of_length_le (by simp)]
      have ed : s.drop i = c :: b := by rw [e, ← hl]; simp
      have hm : (s.drop i).take (j + 1 - i) = (s.take (j + 1)).drop i := by
        rw [List.drop_take]
      refine ⟨_, rfl, a, b', ?_, ?_, ?_, ?_, ?_⟩
      · have ea : a = s.take i := by rw [e, ← hl]; simp
        have eb : b' = s.drop (j + 1) := by rw [e', ← hl']; simp
        rw [ea, eb, hm]
        have : s.take i ++ (s.take (j + 1)).drop i = s.take (j + 1) := by
          rw [show s.take i = (s.take (j + 1)).take i by rw [List.take_take, Nat.min_eq_left (by omega)]]
          exact List.take_append_drop _ _
        rw [this, List.take_append_drop]
      · intro x hx; simpa using ha x hx
      · intro x hx; simpa using hb' x hx
      · intro x hx
        rw [ed, show j + 1 - i = (j - i) + 1 by omega, List.take_succ_cons] at hx
        cases hx
        simpa using hc
      · intro x hx
        rw [hm, et] at hx
        have : i ≤ a'.length := by omega
        rw [List.drop_append_of_le_length this] at hx
        simp at hx
        subst hx
        simpa using hc'

/-- **C26.** Trimming twice is trimming once. -/
theorem C26_trim_idempotent (blank s m : Str) (hs : s.length < 2 ^ 64) (h : trimStr blank s = .ok m) :
    trimStr blank m = .ok m := by
  obtain ⟨m1, h1, ht⟩ := C26_trim blank s hs
  rw [h] at h1; cases h1
  obtain ⟨l, r, e, _, _, hh, hl⟩ := ht
  have hlen : m.length < 2 ^ 64 := by
    have : m.length ≤ s.length := by rw [e]; simp; omega
    omega
  obtain ⟨m2, h2, ht2⟩ := C26_trim blank m hlen
  rw [h2, C26_trimmed_unique blank m m2 m ht2 ⟨[], [], by simp, by simp, by simp, hh, hl⟩]

/-- **C26.** `trim_left_str` removes exactly the leading blanks. -/
theorem C26_trim_left (blank s : Str) : ∃ l m, trimLeftStr blank s = .ok m ∧ s = l ++ m ∧ (∀ c ∈ l, c ∈ blank) ∧
    ∀ c, m.head? = some c → c ∉ blank := by
  unfold trimLeftStr findFirstNotOf
  cases h1 : s.findIdx? (fun c => !blank.contains c) with
  | none => exact ⟨s, [], rfl, by simp, by simpa using findIdx?_none h1, by simp⟩
  | some i =>
    obtain ⟨a, c, b, e, hl, hc, ha⟩ := findIdx?_split h1
    refine ⟨a, c :: b, ?_, e, by simpa using ha, ?_⟩
    · simp only
      rw [substr_ok (by rw [e, ← hl]; simp), e, ← hl]
      simp
    · intro x hx; cases hx; simpa using hc

/-- **C26.** `trim_right_str` removes exactly the trailing blanks. -/
theorem C26_trim_right (blank s : Str) : ∃ m r, trimRightStr blank s = .ok m ∧ s = m ++ r ∧ (∀ c ∈ r, c ∈ blank) ∧
    ∀ c, m.getLast? = some c → c ∉ blank := by
  unfold trimRightStr findLastNotOf
  cases h1 : findLastIdx (fun c => !blank.contains c) s with
  | none =>
    refine ⟨[], s, ?_, by simp, by simpa using findLastIdx_none h1, by simp⟩
    simp only
    rw [substr_ok (by omega)]
    simp
  | some i =>
    obtain ⟨a, c, b, e, hl, hc, hb⟩ := findLastIdx_split h1
    refine ⟨a ++ [c], b, ?_, by rw [e]; simp, by simpa using hb, ?_⟩
    · simp only
      rw [substr_ok (by omega), e, ← hl, show a ++ c :: b = (a ++ [c]) ++ b by simp]
      simp only [List.drop_zero]
      rw [List.take_append_of_le_length (by simp; omega), List.take_of_length_le (by simp; omega)]
    · intro x hx
      simp at hx
      subst hx
      simpa using hc

/-- **C26.** `trim_str` is left trim and then right trim. -/
theorem C26_trim_left_right (blank s : Str) (hs : s.length < 2 ^ 64) :
    trimStr blank s = (trimLeftStr blank s).bind (trimRightStr blank) := by
  obtain ⟨m, h, ht⟩ := C26_trim blank s hs
  obtain ⟨l1, m1, h1, e1, hl1, hh1⟩ := C26_trim_left blank s
  obtain ⟨m2, r2, h2, e2, hr2, hl2⟩ := C26_trim_right blank m1
  rw [h, h1, Res.bind, h2]
  congr 1
  refine C26_trimmed_unique blank s m m2 ht ⟨l1, r2, by rw [e1, e2]; simp, hl1, hr2, ?_, hl2⟩
  intro c hc
  apply hh1 c
  rw [e2]
  cases m2 with
  | nil => cases hc
  | cons x m2 => exact hc

/-- **C26.** A string of blanks becomes empty. -/
theorem C26_blanks (blank s : Str) (h : ∀ c ∈ s, c ∈ blank) : trimStr blank s = .ok [] := by
  unfold trimStr findFirstNotOf
  have : s.findIdx? (fun c => !blank.contains c) = none := by
    rw [List.findIdx?_eq_none_iff]
    intro x hx
    simpa using h x hx
  rw [this]

/-- Blanks outside and inside. -/
example : trimStr " \t".toList " \ta b\t ".toList = .ok "a b".toList := by decide +kernel

end Xo
