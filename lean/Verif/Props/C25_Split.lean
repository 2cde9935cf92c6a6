import Verif.Lemmas.Str

/-!
C25: splitting and concatenating. The separators are the characters of `sep_chars` before its first NUL, because the code
passes `sep_chars.c_str()`; for separator sets without NUL these are all of them (`C25_separators`).
-/
namespace Xo

namespace Spec
/-- `s` consists of the pieces `ps`, none empty and none containing a separator, with separators before, between and
behind; between two pieces there is at least one. -/
inductive Splits (sep : Str) : Str → List Str → Prop
  | done (g : Str) (hg : ∀ c ∈ g, c ∈ sep) : Splits sep g []
  | piece (g p rest : Str) (ps : List Str) (hg : ∀ c ∈ g, c ∈ sep) (hne : p ≠ []) (hp : ∀ c ∈ p, c ∉ sep)
      (hr : ∀ c, rest.head? = some c → c ∈ sep) (h : Splits sep rest ps) : Splits sep (g ++ p ++ rest) (p :: ps)
end Spec

open Spec

theorem dropWhile_append_all {α : Type} {p : α → Bool} {g r : List α} (hg : ∀ c ∈ g, p c = true) :
    (g ++ r).dropWhile p = r.dropWhile p := by
  induction g with
  | nil => rfl
  | cons x g ih =>
    rw [List.cons_append, List.dropWhile_cons, if_pos (hg x (by simp)), ih (fun c hc => hg c (by simp [hc]))]

theorem mem_takeWhile_imp' {α : Type} {p : α → Bool} {l : List α} {x : α} (h : x ∈ l.takeWhile p) : p x = true := by
  induction l with
  | nil => cases h
  | cons y l ih =>
    rw [List.takeWhile_cons] at h
    split at h
    · next hy =>
      rcases List.mem_cons.1 h with rfl | h
      · exact hy
      · exact ih h
    · cases h

theorem span_append {α : Type} {p : α → Bool} {a r : List α} (ha : ∀ c ∈ a, p c = true)
    (hr : ∀ c, r.head? = some c → p c = false) : (a ++ r).takeWhile p = a ∧ (a ++ r).dropWhile p = r := by
  induction a with
  | nil =>
    cases r with
    | nil => simp
    | cons x r => simp [hr x rfl]
  | cons x a ih =>
    have := ih (fun c hc => ha c (by simp [hc]))
    simp [ha x (by simp), this]

theorem splitLoop_done {sep g : Str} (hg : ∀ c ∈ g, c ∈ sep) : splitLoop sep g = [] := by
  have : g.dropWhile (fun c => sep.contains c) = [] := by
    have := dropWhile_append_all (r := []) (p := fun c => sep.contains c) (g := g) (by simpa using hg)
    simpa using this
  rw [splitLoop]
  split
  · rfl
  · next h => rw [this] at h; cases h

theorem splitLoop_piece {sep g p rest : Str} (hg : ∀ c ∈ g, c ∈ sep) (hne : p ≠ []) (hp : ∀ c ∈ p, c ∉ sep)
    (hr : ∀ c, rest.head? = some c → c ∈ sep) :
    splitLoop sep (g ++ p ++ rest) = p :: splitLoop sep rest := by
  have h1 : (g ++ p ++ rest).dropWhile (fun c => sep.contains c) = p ++ rest := by
    rw [List.append_assoc, dropWhile_append_all (by simpa using hg)]
    cases p with
    | nil => exact absurd rfl hne
    | cons x p =>
      rw [List.cons_append, List.dropWhile_cons, if_neg]
      simpa using hp x (by simp)
  have h2 := span_append (p := fun c => !sep.contains c) (a := p) (r := rest) (by simpa using hp) (by simpa using hr)
  rw [splitLoop]
  split
  · next h =>
    rw [h1] at h
    cases p with
    | nil => exact absurd rfl hne
    | cons => cases h
  · next c cs h =>
    rw [h1] at h
    rw [← h, h2.1, h2.2]

/-- **C25.** Splitting returns the maximal separator-free pieces in order. -/
theorem C25_split (s sepChars : Str) : Splits (cstr sepChars) s (splitStr s sepChars) := by
  unfold splitStr
  generalize cstr sepChars = sep
  induction hn : s.length using Nat.strongRecOn generalizing s with
  | ind n ih =>
    -- leading separators, then the rest
    have e1 : s = s.takeWhile (fun c => sep.contains c) ++ s.dropWhile (fun c => sep.contains c) :=
      (List.takeWhile_append_dropWhile).symm
    have hg : ∀ c ∈ s.takeWhile (fun c => sep.contains c), c ∈ sep := by
      intro c hc
      simpa using mem_takeWhile_imp' hc
    cases hd : s.dropWhile (fun c => sep.contains c) with
    | nil =>
      rw [hd, List.append_nil] at e1
      rw [← e1] at hg
      rw [splitLoop_done hg]
      exact .done s hg
    | cons c cs =>
      have hc : c ∉ sep := by
        have := List.head_dropWhile_not (fun c => sep.contains c) (l := s) (by rw [hd]; simp)
        simp only [hd, List.head_cons] at this
        simpa using this
      have e2 : c :: cs = (c :: cs).takeWhile (fun c => !sep.contains c) ++
          (c :: cs).dropWhile (fun c => !sep.contains c) := (List.takeWhile_append_dropWhile).symm
      have hne : (c :: cs).takeWhile (fun c => !sep.contains c) ≠ [] := by
        rw [List.takeWhile_cons, if_pos (by simpa using hc)]; simp
      have hp : ∀ x ∈ (c :: cs).takeWhile (fun c => !sep.contains c), x ∉ sep := by
        intro x hx
        simpa using mem_takeWhile_imp' hx
      have hr : ∀ x, ((c :: cs).dropWhile (fun c => !sep.contains c)).head? = some x → x ∈ sep := by
        intro x hx
        have hne2 : (c :: cs).dropWhile (fun c => !sep.contains c) ≠ [] := by
          intro h0; rw [h0] at hx; cases hx
        have h3 := List.head_dropWhile_not (fun c => !sep.contains c) (l := c :: cs) hne2
        have h4 : ((c :: cs).dropWhile (fun c => !sep.contains c)).head hne2 = x := by
          rw [List.head?_eq_some_head hne2] at hx
          simpa using hx
        rw [h4] at h3
        simpa using h3
      generalize (c :: cs).takeWhile (fun c => !sep.contains c) = p at *
      generalize (c :: cs).dropWhile (fun c => !sep.contains c) = rest at *
      rw [hd, e2, ← List.append_assoc] at e1
      generalize s.takeWhile (fun c => sep.contains c) = g at *
      subst e1
      rw [splitLoop_piece hg hne hp hr]
      refine .piece g p rest _ hg hne hp hr (ih rest.length ?_ rest rfl)
      have : 0 < p.length := List.length_pos_iff.2 hne
      rw [← hn]; simp; omega

/-- **C25.** The division into pieces is unique, so `split_str` is determined by it. -/
theorem C25_split_unique (s sepChars : Str) (ps : List Str) (h : Splits (cstr sepChars) s ps) :
    splitStr s sepChars = ps := by
  unfold splitStr
  induction h with
  | done g hg => exact splitLoop_done hg
  | piece g p rest ps hg hne hp hr _ ih => rw [splitLoop_piece hg hne hp hr, ih]

/-- Without NUL, the separators are all characters of `sep_chars`. -/
theorem C25_separators (sepChars : Str) (h : Char.ofNat 0 ∉ sepChars) : cstr sepChars = sepChars := by
  unfold cstr
  have := (span_append (p := fun x => decide (x ≠ Char.ofNat 0)) (a := sepChars) (r := []) (by
    intro c hc
    have : c ≠ Char.ofNat 0 := by rintro rfl; exact h hc
    simpa using this) (by simp)).1
  simpa using this

theorem concatList_eq (ps : List Str) (delim : Str) (h : ∀ p ∈ ps, p ≠ []) :
    concatList ps delim = delim.intercalate ps := by
  unfold concatList
  have aux : ∀ (ps : List Str) (acc : Str), (∀ p ∈ ps, p ≠ []) →
      (ps.foldl (fun (st : Str × Bool) e =>
        if e.isEmpty then st else ((if st.2 then st.1 else st.1 ++ delim) ++ e, false)) (acc, false)).1 =
      acc ++ (ps.map (delim ++ ·)).flatten := by
    intro ps
    induction ps with
    | nil => intro acc _; simp
    | cons p ps ih =>
      intro acc hp
      have : p.isEmpty = false := by simpa using hp p (by simp)
      simp only [List.foldl_cons, this, Bool.false_eq_true, if_false]
      rw [ih _ (fun q hq => hp q (by simp [hq]))]
      simp
  cases ps with
  | nil => rfl
  | cons p ps =>
    have : p.isEmpty = false := by simpa using h p (by simp)
    simp only [List.foldl_cons, this, Bool.false_eq_true, if_false, if_true, List.nil_append]
    rw [aux ps p (fun q hq => h q (by simp [hq]))]
    have inter : ∀ (p : Str) (ps : List Str), delim.intercalate (p :: ps) = p ++ (ps.map (delim ++ ·)).flatten := by
      intro p ps
      induction ps generalizing p with
      | nil => simp [List.intercalate]
      | cons q ps ih =>
        have := ih q
        simp only [List.intercalate, List.intersperse_cons₂, List.flatten_cons] at this ⊢
        simp [this]
    rw [inter]

/-- **C25.** Concatenating separator-free non-empty pieces with a delimiter made of separators and splitting again
returns the pieces. -/
theorem C25_concat_then_split (ps : List Str) (delim sepChars : Str) (hne : ∀ p ∈ ps, p ≠ [])
    (hp : ∀ p ∈ ps, ∀ c ∈ p, c ∉ cstr sepChars) (hd : delim ≠ []) (hds : ∀ c ∈ delim, c ∈ cstr sepChars) :
    splitStr (concatList ps delim) sepChars = ps := by
  apply C25_split_unique
  rw [concatList_eq ps delim hne]
  -- with a gap in front
  have aux : ∀ (ps : List Str) (g : Str), (∀ p ∈ ps, p ≠ []) → (∀ p ∈ ps, ∀ c ∈ p, c ∉ cstr sepChars) →
      (∀ c ∈ g, c ∈ cstr sepChars) → Splits (cstr sepChars) (g ++ delim.intercalate ps) ps := by
    intro ps
    induction ps with
    | nil => intro g _ _ hg; exact .done _ (by simpa [List.intercalate] using hg)
    | cons p ps ih =>
      intro g hne hp hg
      cases ps with
      | nil =>
        have := Splits.piece g p [] [] hg (hne p (by simp)) (hp p (by simp)) (by simp) (.done [] (by simp))
        simpa [List.intercalate] using this
      | cons q ps =>
        have h := ih delim (fun x hx => hne x (by simp [hx])) (fun x hx => hp x (by simp [hx])) hds
        have e : g ++ delim.intercalate (p :: q :: ps) = g ++ p ++ (delim ++ delim.intercalate (q :: ps)) := by
          simp [List.intercalate]
        rw [e]
        refine .piece g p _ _ hg (hne p (by simp)) (hp p (by simp)) ?_ h
        intro c hc
        cases delim with
        | nil => exact absurd rfl hd
        | cons x delim => cases hc; exact hds _ (by simp)
  exact aux ps [] hne hp (by simp)

/-- **C25.** `split_str_at_first`: without a separator, the string and an empty string; otherwise the parts before and
after the first separator, and re-joining them with it gives the original. -/
theorem C25_split_at_first (s sepChars : Str) :
    ((∀ c ∈ s, c ∉ cstr sepChars) ∧ splitAtFirst s sepChars = .ok (s, [])) ∨
    ∃ a c b, splitAtFirst s sepChars = .ok (a, b) ∧ s = a ++ c :: b ∧ c ∈ cstr sepChars ∧
      ∀ x ∈ a, x ∉ cstr sepChars := by
  unfold splitAtFirst findFirstOf
  cases h : s.findIdx? (fun c => (cstr sepChars).contains c) with
  | none => left; exact ⟨by simpa using findIdx?_none h, rfl⟩
  | some i =>
    right
    obtain ⟨a, c, b, e, hl, hc, ha⟩ := findIdx?_split h
    refine ⟨a, c, b, ?_, e, by simpa using hc, by simpa using ha⟩
    simp only
    rw [substr_ok (by omega), substr_ok (by rw [e, ← hl]; simp), e, ← hl]
    simp [Res.bind]

/-- **C25.** `split_str_at_last`, likewise with the last separator. -/
theorem C25_split_at_last (s sepChars : Str) :
    ((∀ c ∈ s, c ∉ cstr sepChars) ∧ splitAtLast s sepChars = .ok (s, [])) ∨
    ∃ a c b, splitAtLast s sepChars = .ok (a, b) ∧ s = a ++ c :: b ∧ c ∈ cstr sepChars ∧
      ∀ x ∈ b, x ∉ cstr sepChars := by
  unfold splitAtLast findLastOf
  cases h : findLastIdx (fun c => (cstr sepChars).contains c) s with
  | none => left; exact ⟨by simpa using findLastIdx_none h, rfl⟩
  | some i =>
    right
    obtain ⟨a, c, b, e, hl, hc, ha⟩ := findLastIdx_split h
    refine ⟨a, c, b, ?_, e, by simpa using hc, by simpa using ha⟩
    simp only
    rw [substr_ok (by omega), substr_ok (by rw [e, ← hl]; simp), e, ← hl]
    simp [Res.bind]

/-- Separators at both ends and repeated. -/
example : splitStr ";a;;bc;".toList ";".toList = ["a".toList, "bc".toList] ∧
    concatList ["a".toList, [], "bc".toList] "; ".toList = "a; bc".toList ∧
    splitAtLast "a.b.c".toList ".".toList = .ok ("a.b".toList, "c".toList) := by decide +kernel

end Xo
