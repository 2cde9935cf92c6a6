import Verif.Model.SpecialChars
import Verif.Props.C27_Replace

/-! C127. Special characters and formatted text.

Replacing special characters puts plain letters in the place of each accented letter and leaves everything else;
the result has plain characters only. A formatted text is complete. -/

namespace Xo.SpecC
open _root_.Xo.Spec

namespace Spec

/-- A plain character: ASCII. -/
def Plain (s : Str) : Prop := ∀ c ∈ s, c.toNat < 128

/-- The letters for a character, in ISO 8859-1: À Á, Ä, Ù Û Ü, à á, ä, ç, è é ê ë, ï, ñ, ó ö, ù û, ü. -/
def letters (n : Nat) : Option String :=
  if n = 0xC0 ∨ n = 0xC1 then some "A"
  else if n = 0xC4 then some "Ae"
  else if n = 0xD9 ∨ n = 0xDB ∨ n = 0xDC then some "U"
  else if n = 0xE0 ∨ n = 0xE1 then some "a"
  else if n = 0xE4 then some "ae"
  else if n = 0xE7 then some "c"
  else if 0xE8 ≤ n ∧ n ≤ 0xEB then some "e"
  else if n = 0xEF then some "i"
  else if n = 0xF1 then some "n"
  else if n = 0xF3 ∨ n = 0xF6 then some "o"
  else if n = 0xF9 ∨ n = 0xFB then some "u"
  else if n = 0xFC then some "ue"
  else none

/-- What a character becomes. -/
def subst (c : Char) : Str :=
  match letters c.toNat with
  | some t => t.toList
  | none => [c]

end Spec
open Spec

/-- Replacing one character. -/
def one (a : Char) (r : Str) (c : Char) : Str := if c = a then r else [c]

theorem occurs_mem {a : Char} {s : Str} (h : a ∈ s) : ∃ i, OccursAt [a] s i := by
  obtain ⟨x, y, rfl⟩ := List.append_of_mem h
  exact ⟨x.length, by simp, by simp⟩

theorem mem_occurs {a : Char} {s : Str} {i : Nat} (h : OccursAt [a] s i) : a ∈ s := by
  obtain ⟨-, t, e⟩ := h
  have : a ∈ s.drop i := by rw [← e]; simp
  exact List.mem_of_mem_drop this

theorem flatMap_absent {a : Char} {r s : Str} (h : a ∉ s) : s.flatMap (one a r) = s := by
  induction s with
  | nil => rfl
  | cons c t ih =>
    have h1 : c ≠ a := by rintro rfl; simp at h
    have h2 : a ∉ t := fun hh => h (by simp [hh])
    simp [one, h1] at ih ⊢
    exact ih h2

theorem replaced_flatMap {a : Char} {r s o : Str} (h : Replaced [a] r s o) : o = s.flatMap (one a r) := by
  induction h with
  | done s h => exact (flatMap_absent (fun hm => (occurs_mem hm).elim fun i hi => h i hi)).symm
  | step x b b' h hb ih =>
    have hx : a ∉ x := by
      intro hm
      obtain ⟨u, v, rfl⟩ := List.append_of_mem hm
      exact h u.length (by simp) ⟨by simp, by simp⟩
    rw [List.flatMap_append, List.flatMap_append, flatMap_absent hx, ← ih]
    simp [one]

theorem replace_one (a : Char) (r s : Str) : replaceStr s [a] r = .ok (s.flatMap (one a r)) := by
  obtain ⟨o, h1, h2⟩ := (C27_replace s [a] r).2 (by simp)
  rw [h1, replaced_flatMap h2]

/-- The table with one line for each character. -/
def flat : List (Char × Str) := fixes.flatMap fun f => f.1.map fun c => (Char.ofNat c, f.2)

theorem fold_flat (s : Str) : replaceSpecialChars s = .ok (flat.foldl (fun s p => s.flatMap (one p.1 p.2)) s) := by
  have inner : ∀ (l : List Nat) (r : Str) (s : Str), l.foldl (fun (r' : Res Str) c => r'.bind fun s => replaceStr s [Char.ofNat c] r) (.ok s) =
      .ok ((l.map fun c => (Char.ofNat c, r)).foldl (fun s p => s.flatMap (one p.1 p.2)) s) := by
    intro l r
    induction l with
    | nil => intro s; rfl
    | cons c t ih =>
      intro s
      rw [List.foldl_cons, List.map_cons, List.foldl_cons,
        show (Res.ok s).bind (fun s => replaceStr s [Char.ofNat c] r) = .ok (s.flatMap (one (Char.ofNat c) r)) from replace_one _ _ _]
      exact ih _
  unfold replaceSpecialChars flat
  generalize fixes = l
  induction l generalizing s with
  | nil => rfl
  | cons f t ih =>
    rw [List.foldl_cons, inner, ih, List.flatMap_cons, List.foldl_append]

/-- One pass instead of many, when no replacement holds a character of the table. -/
theorem fold_subst (l : List (Char × Str)) (hl : ∀ p ∈ l, ∀ q ∈ l, q.1 ∉ p.2) (s : Str) :
    l.foldl (fun s p => s.flatMap (one p.1 p.2)) s =
      s.flatMap fun c => match l.find? (fun p => c = p.1) with | some p => p.2 | none => [c] := by
  induction l generalizing s with
  | nil => simp
  | cons p t ih =>
    rw [List.foldl_cons, ih (fun a ha b hb => hl a (by simp [ha]) b (by simp [hb])), List.flatMap_assoc]
    refine List.flatMap_congr fun c _ => ?_
    by_cases hc : c = p.1
    · subst hc
      simp only [one, if_true, List.find?_cons, decide_true]
      have : ∀ r : Str, (∀ q ∈ t, q.1 ∉ r) → (r.flatMap fun c => match t.find? (fun p => c = p.1) with | some p => p.2 | none => [c]) = r := by
        intro r
        induction r with
        | nil => intro _; rfl
        | cons d r ihr =>
          intro hr
          rw [List.flatMap_cons, ihr (fun q hq hm => hr q hq (by simp [hm]))]
          have : t.find? (fun p => d = p.1) = none := by
            rw [List.find?_eq_none]
            intro q hq hd
            exact hr q hq (by simp at hd; simp [hd])
          rw [this]; rfl
      exact this p.2 (fun q hq => hl p (by simp) q (by simp [hq]))
    · simp [one, hc]

theorem find_flat (c : Char) : (match flat.find? (fun p => c = p.1) with | some p => p.2 | none => [c]) = subst c := by
  by_cases h : ∃ n ∈ (flat.map fun p => p.1.toNat), c.toNat = n
  · obtain ⟨n, hn, e⟩ := h
    have hc : c = Char.ofNat n := by rw [← e, Char.ofNat_toNat]
    have all : ∀ n ∈ (flat.map fun p => p.1.toNat), (match flat.find? (fun p => Char.ofNat n = p.1) with | some p => p.2 | none => [Char.ofNat n]) =
        subst (Char.ofNat n) := by decide +kernel
    rw [hc]
    exact all n hn
  · have hn : flat.find? (fun p => c = p.1) = none := by
      rw [List.find?_eq_none]
      intro q hq hd
      simp at hd
      exact h ⟨c.toNat, List.mem_map.2 ⟨q, hq, by rw [hd]⟩, rfl⟩
    rw [hn]
    have hl : (flat.map fun p => p.1.toNat) = [0xC1, 0xC0, 0xC4, 0xDC, 0xDB, 0xD9, 0xE1, 0xE0, 0xE4, 0xE7, 0xEB, 0xEA, 0xE9, 0xE8, 0xEF, 0xF1, 0xF3, 0xF6, 0xFB, 0xF9, 0xFC] := by
      decide +kernel
    rw [hl] at h
    have hne : letters c.toNat = none := by
      simp only [List.mem_cons, List.not_mem_nil, or_false, exists_eq_right'] at h
      generalize c.toNat = k at h
      unfold letters
      rw [if_neg (by omega), if_neg (by omega), if_neg (by omega), if_neg (by omega), if_neg (by omega), if_neg (by omega),
        if_neg (by omega), if_neg (by omega), if_neg (by omega), if_neg (by omega), if_neg (by omega), if_neg (by omega)]
    simp only [subst, hne]

/-- Every character is replaced by its letters, all others stay as they are and where they are. -/
theorem C127_replace (s : Str) : replaceSpecialChars s = .ok (s.flatMap subst) := by
  rw [fold_flat, fold_subst flat (by decide +kernel)]
  congr 1
  exact List.flatMap_congr fun c _ => find_flat c

/-- Plain text stays as it is. -/
theorem C127_plain {s : Str} (h : Plain s) : replaceSpecialChars s = .ok s := by
  rw [C127_replace]
  congr 1
  have : ∀ c : Char, c.toNat < 128 → subst c = [c] := by
    intro c hc
    have : letters c.toNat = none := by
      unfold letters
      rw [if_neg (by omega), if_neg (by omega), if_neg (by omega), if_neg (by omega), if_neg (by omega), if_neg (by omega),
        if_neg (by omega), if_neg (by omega), if_neg (by omega), if_neg (by omega), if_neg (by omega), if_neg (by omega)]
    simp only [subst, this]
  induction s with
  | nil => rfl
  | cons c t ih => rw [List.flatMap_cons, this c (h c (by simp)), ih (fun d hd => h d (by simp [hd]))]; rfl

theorem letters_plain {n : Nat} {t : String} (h : letters n = some t) : Plain t.toList := by
  by_cases hn : n < 256
  · have all : ∀ n < 256, ((letters n).map String.toList).all (fun t => t.all fun c => decide (c.toNat < 128)) = true := by decide +kernel
    have := all n hn
    rw [h] at this
    simp only [Option.map_some, Option.all_some, List.all_eq_true, decide_eq_true_eq] at this
    exact this
  · exfalso
    unfold letters at h
    rw [if_neg (by omega), if_neg (by omega), if_neg (by omega), if_neg (by omega), if_neg (by omega), if_neg (by omega),
      if_neg (by omega), if_neg (by omega), if_neg (by omega), if_neg (by omega), if_neg (by omega), if_neg (by omega)] at h
    cases h

/-- The letters of the table are gone, so that doing it again changes nothing. -/
theorem C127_twice (s : Str) : ∃ t, replaceSpecialChars s = .ok t ∧ (∀ c ∈ t, letters c.toNat = none) ∧ replaceSpecialChars t = .ok t := by
  have none_plain : ∀ c : Char, c.toNat < 128 → letters c.toNat = none := by
    intro c hc
    unfold letters
    rw [if_neg (by omega), if_neg (by omega), if_neg (by omega), if_neg (by omega), if_neg (by omega), if_neg (by omega),
      if_neg (by omega), if_neg (by omega), if_neg (by omega), if_neg (by omega), if_neg (by omega), if_neg (by omega)]
  have gone : ∀ c ∈ s.flatMap subst, letters c.toNat = none := by
    intro c hc
    obtain ⟨d, -, hd⟩ := List.mem_flatMap.1 hc
    unfold subst at hd
    split at hd
    · next t h => exact none_plain c (letters_plain h c hd)
    · next h => rw [List.mem_singleton.1 hd]; exact h
  refine ⟨_, C127_replace s, gone, ?_⟩
  rw [C127_replace]
  congr 1
  generalize s.flatMap subst = t at gone
  induction t with
  | nil => rfl
  | cons c t ih =>
    rw [List.flatMap_cons, ih (fun d hd => gone d (by simp [hd]))]
    simp only [subst, gone c (by simp)]
    rfl

/-- The text is plain if all its other characters are. -/
theorem C127_result_partial {s : Str} (h : ∀ c ∈ s, c.toNat < 128 ∨ (letters c.toNat).isSome) : ∃ t, replaceSpecialChars s = .ok t ∧ Plain t := by
  refine ⟨_, C127_replace s, fun c hc => ?_⟩
  obtain ⟨d, hd, hc⟩ := List.mem_flatMap.1 hc
  unfold subst at hc
  split at hc
  · next t e => exact letters_plain e c hc
  · next e =>
    rw [List.mem_singleton.1 hc]
    rcases h d hd with hh | hh
    · exact hh
    · rw [e] at hh; cases hh

/-- Not all accented letters are in the table: É, Ö and ê's neighbours í and ô are not. -/
theorem C127_missing_violated : ∀ n ∈ [0xC9, 0xD6, 0xED, 0xF4], replaceSpecialChars [Char.ofNat n] = .ok [Char.ofNat n] := by
  intro n hn
  rw [C127_replace]
  congr 1
  revert n
  decide +kernel

/-- A text in UTF-8 can lose its characters: Ā is C4 80, and the bytes of its result are no UTF-8 text. -/
theorem C127_utf8_violated : replaceSpecialChars [Char.ofNat 0xC4, Char.ofNat 0x80] = .ok ['A', 'e', Char.ofNat 0x80] := by
  rw [C127_replace]
  decide +kernel

theorem takeWhile_all {p : Char → Bool} : ∀ {t : Str}, (∀ c ∈ t, p c = true) → t.takeWhile p = t
  | [], _ => rfl
  | c :: t, h => by rw [List.takeWhile_cons, if_pos (h c (by simp)), takeWhile_all fun d hd => h d (by simp [hd])]

/-- Formatted text of up to 255 characters is complete. -/
theorem C127_format_partial {t : Str} (h : t.length ≤ 255) (h0 : ∀ c ∈ t, c ≠ Char.ofNat 0) : stringf t = t := by
  unfold stringf cstr
  rw [List.take_of_length_le h]
  refine takeWhile_all ?_
  intro c hc
  simpa using h0 c hc

/-- Longer text is cut off, without any report. -/
theorem C127_format_violated {t : Str} (h : 255 < t.length) (h0 : ∀ c ∈ t, c ≠ Char.ofNat 0) : stringf t = t.take 255 ∧ stringf t ≠ t := by
  have e : stringf t = t.take 255 := by
    unfold stringf cstr
    refine takeWhile_all ?_
    intro c hc
    simpa using h0 c (List.mem_of_mem_take hc)
  refine ⟨e, fun hh => ?_⟩
  rw [e] at hh
  have := congrArg List.length hh
  simp at this
  omega

example : replaceSpecialChars [Char.ofNat 0xFC, 'b', Char.ofNat 0xE9] = .ok "uebe".toList := by
  rw [C127_replace]; decide +kernel

end Xo.SpecC
