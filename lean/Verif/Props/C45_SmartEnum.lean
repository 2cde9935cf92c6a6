import Verif.Model.SmartEnum
import Mathlib.Data.List.Nodup
import Mathlib.Data.List.Basic
import Mathlib.Data.List.TakeWhile

/-!
C45: smart enums.
-/
namespace Xo
open SmartEnum

namespace Spec

/-- A plain identifier, as far as the conversion is concerned: not empty, no separator. -/
def PlainName (n : Str) : Prop := n ≠ [] ∧ ∀ c ∈ n, isSep c = false

/-- The text of an enumerator list: names, each followed by separators; only the last may have none. -/
def enumText : List (Str × Str) → Str
  | [] => []
  | (n, sep) :: l => n ++ sep ++ enumText l

/-- Names are plain, separators are separators, and names are separated. -/
def EnumList (l : List (Str × Str)) : Prop :=
  (∀ x ∈ l, PlainName x.1 ∧ ∀ c ∈ x.2, isSep c = true) ∧ (∀ x ∈ l.dropLast, x.2 ≠ [])

end Spec
open Spec

theorem takeWhile_append_stop {p : Char → Bool} {a b : Str} (ha : ∀ c ∈ a, p c = true)
    (hb : ∀ c, b.head? = some c → p c = false) : (a ++ b).takeWhile p = a := by
  induction a with
  | nil =>
    cases b with
    | nil => rfl
    | cons c cs => simp [hb c rfl]
  | cons x a ih =>
    have hx := ha x (by simp)
    simp [hx, ih fun c hc => ha c (by simp [hc])]

/-- What follows the first name and its separators is the text of the other names. -/
theorem enumText_step {n sep : Str} {l : List (Str × Str)} (h : EnumList ((n, sep) :: l)) :
    cspn (enumText ((n, sep) :: l)) = n.length ∧
    (enumText ((n, sep) :: l)).take n.length = n ∧
    (enumText ((n, sep) :: l)).drop n.length = sep ++ enumText l ∧
    spn (sep ++ enumText l) = sep.length ∧ EnumList l := by
  obtain ⟨h1, h2⟩ := h
  have hn := h1 (n, sep) (by simp)
  have htail : EnumList l := by
    refine ⟨fun x hx => h1 x (by simp [hx]), fun x hx => h2 x ?_⟩
    cases l with
    | nil => simp at hx
    | cons y l => simp [hx]
  have hhead : ∀ c, (enumText l).head? = some c → isSep c = false := by
    intro c hc
    cases l with
    | nil => simp [enumText] at hc
    | cons y l =>
      obtain ⟨m, s⟩ := y
      have hm := h1 (m, s) (by simp)
      obtain ⟨x, xs, hxs⟩ := List.exists_cons_of_ne_nil hm.1.1
      have hm2 : m = x :: xs := hxs
      simp only [enumText, hm2, List.cons_append, List.head?_cons, Option.some.injEq] at hc
      subst hc
      exact hm.1.2 x (by simp [hm2])
  have hsep : ∀ c, (sep ++ enumText l).head? = some c → (!isSep c) = false := by
    intro c hc
    cases sep with
    | cons x xs =>
      simp only [List.cons_append, List.head?_cons, Option.some.injEq] at hc
      subst hc
      simp [hn.2 x (by simp)]
    | nil =>
      cases l with
      | nil => simp [enumText] at hc
      | cons y l => exact absurd rfl (h2 (n, []) (by simp))
  have happ : enumText ((n, sep) :: l) = n ++ (sep ++ enumText l) := by simp [enumText]
  refine ⟨?_, ?_, ?_, ?_, htail⟩
  · rw [happ, cspn, takeWhile_append_stop (fun c hc => by simp [hn.1.2 c hc]) hsep]
  · rw [happ]; simp
  · rw [happ]; simp
  · rw [spn, takeWhile_append_stop hn.2 hhead]

theorem enumText_ne_nil {n sep : Str} {l : List (Str × Str)} (h : EnumList ((n, sep) :: l)) :
    enumText ((n, sep) :: l) ≠ [] := by
  have := (h.1 (n, sep) (by simp)).1.1
  simp [enumText, this]

/-- `from_str` finds the position of the first name equal to the text. -/
theorem fromStrLoop_spec (str : Str) (l : List (Str × Str)) :
    ∀ i, EnumList l → fromStrLoop str (enumText l) i = ((l.map (·.1)).findIdx? (· == str)).map (· + i) := by
  induction l with
  | nil => intro i _; rw [fromStrLoop]; simp [enumText]
  | cons x l ih =>
    intro i h
    obtain ⟨n, sep⟩ := x
    obtain ⟨e1, e2, e3, e4, ht⟩ := enumText_step h
    rw [fromStrLoop, dif_neg (enumText_ne_nil h)]
    simp only [e1, e2, e3, e4]
    by_cases hs : str = n
    · subst hs
      simp [List.findIdx?_cons]
    · have hne : ¬ (str.length = n.length ∧ n = str) := fun hc => hs hc.2.symm
      rw [if_neg hne, ← List.drop_drop, e3, List.drop_left, ih (i + 1) ht]
      have hb : (n == str) = false := by simp [Ne.symm hs]
      simp only [List.map_cons, List.findIdx?_cons, hb]
      rw [if_neg (by simp), Option.map_map]
      congr 1
      funext k; simp only [Function.comp]; omega

theorem skip_spec (l : List (Str × Str)) : ∀ k, EnumList l → skip k (enumText l) = enumText (l.drop k) := by
  induction l with
  | nil => intro k _; cases k <;> simp [skip, enumText]
  | cons x l ih =>
    intro k h
    obtain ⟨n, sep⟩ := x
    obtain ⟨e1, e2, e3, e4, ht⟩ := enumText_step h
    cases k with
    | zero => rfl
    | succ k =>
      rw [skip, if_neg (enumText_ne_nil h), e1, e3, e4, List.drop_left, ih k ht, List.drop_succ_cons]

theorem enumList_drop {l : List (Str × Str)} (k : Nat) (h : EnumList l) : EnumList (l.drop k) := by
  induction k generalizing l with
  | zero => exact h
  | succ k ih =>
    cases l with
    | nil => simpa using h
    | cons x l => obtain ⟨n, sep⟩ := x; exact ih (enumText_step h).2.2.2.2

/-- `to_str` gives the name of every enumerator, and the empty text beyond the last. -/
theorem C45_to_str (l : List (Str × Str)) (h : EnumList l) (i : Nat) :
    toStr i (enumText l) = ((l.map (·.1))[i]?).getD [] := by
  unfold toStr
  simp only [Int.toNat_natCast, skip_spec l i h]
  cases hd : l.drop i with
  | nil =>
    have : l[i]? = none := by rw [List.getElem?_eq_none_iff]; exact List.drop_eq_nil_iff.1 hd
    simp [enumText, this]
  | cons x t =>
    have hi : l[i]? = some x := by
      have := congrArg List.head? hd
      simpa using this
    obtain ⟨n, sep⟩ := x
    have hh := enumList_drop i h
    rw [hd] at hh
    obtain ⟨e1, e2, _⟩ := enumText_step hh
    rw [e1, e2]
    simp [hi]

/-- **C45.** For an enumeration with distinct plain identifiers and any separators: every enumerator converts to its
identifier, the identifier converts back to the enumerator, and no other text is accepted. -/
theorem C45_round_trip (l : List (Str × Str)) (h : EnumList l) (hd : (l.map (·.1)).Nodup) :
    (∀ i (hi : i < l.length), toStr i (enumText l) = (l[i]'hi).1) ∧
    (∀ i, i < l.length → fromStr (toStr i (enumText l)) (enumText l) = some i) ∧
    (∀ s, s ∉ l.map (·.1) → fromStr s (enumText l) = none) := by
  have h1 : ∀ i (hi : i < l.length), toStr i (enumText l) = (l[i]'hi).1 := by
    intro i hi
    rw [C45_to_str l h]
    simp [List.getElem?_eq_getElem hi]
  refine ⟨h1, fun i hi => ?_, fun s hs => ?_⟩
  · rw [h1 i hi, fromStr, fromStrLoop_spec _ l 0 h]
    have hf : (l.map (·.1)).findIdx? (· == (l[i]'hi).1) = some i := by
      rw [List.findIdx?_eq_some_iff_getElem]
      refine ⟨by simpa using hi, by simp, fun j hj => ?_⟩
      simp only [List.getElem_map]
      intro he
      have hj' : j < l.length := Nat.lt_trans hj hi
      have := (List.Nodup.getElem_inj_iff hd (i := j) (j := i) (hi := by simpa using hj') (hj := by simpa using hi)).1
        (by simpa using he)
      omega
    simp [hf]
  · rw [fromStr, fromStrLoop_spec _ l 0 h]
    have hf : (l.map (·.1)).findIdx? (· == s) = none := by
      rw [List.findIdx?_eq_none_iff]
      intro x hx
      simp only [beq_eq_false_iff_ne, ne_eq]
      rintro rfl; exact hs hx
    simp [hf]

/-- Two enumerators with the same name cannot be told apart: the first is found. Distinctness is needed. -/
theorem C45_duplicate_finds_first (n s1 : Str) (l : List (Str × Str)) (h : EnumList ((n, s1) :: l)) :
    fromStr n (enumText ((n, s1) :: l)) = some 0 := by
  rw [fromStr, fromStrLoop_spec _ _ 0 h]
  simp [List.findIdx?_cons]

/-- Beyond C45: every negative value converts to the first name. -/
theorem C45_negative_is_first (e : Int) (he : e < 0) (va : Str) : toStr e va = toStr 0 va := by
  unfold toStr
  have : e.toNat = 0 := by omega
  rw [this]; rfl

/-- Beyond C45: an enumerator with an explicit value shifts all later ones: with `A = 5, B`, value 1 prints "=". -/
theorem C45_explicit_values_shift : toStr 1 "A = 5, B".toList = "=".toList ∧ fromStr "B".toList "A = 5, B".toList = some 3 := by
  constructor
  · decide +kernel
  · have h : EnumList [("A".toList, " ".toList), ("=".toList, " ".toList), ("5".toList, ", ".toList), ("B".toList, [])] := by
      constructor
      · intro x hx
        simp at hx
        rcases hx with rfl | rfl | rfl | rfl <;> simp [PlainName, isSep]
      · simp
    have e : enumText [("A".toList, " ".toList), ("=".toList, " ".toList), ("5".toList, ", ".toList), ("B".toList, [])]
        = "A = 5, B".toList := by decide
    rw [← e, fromStr, fromStrLoop_spec _ _ 0 h]
    decide

/-- Beyond C45: reading an enumerator that is the last word of a stream leaves the variable as it was and reports
no failure, whatever the word is. -/
theorem C45_stream_last_word_ignored (va w : Str) (e : Int) (hw : w ≠ []) (hb : ∀ c ∈ w, isBlank c = false) :
    readStream va w e = (e, false) := by
  have h1 : w.dropWhile isBlank = w := by
    cases w with
    | nil => exact absurd rfl hw
    | cons c cs => simp [hb c (by simp)]
  have h2 : (w.takeWhile fun c => !isBlank c) = w := by
    rw [List.takeWhile_eq_self_iff]; intro c hc; simp [hb c hc]
  have h3 : (w.dropWhile fun c => !isBlank c) = [] := by
    rw [List.dropWhile_eq_nil_iff]; intro c hc; simp [hb c hc]
  simp [readStream, h1, h2, h3, hw]

/-- Non-vacuity: `enum { Red, Green,\n Blue }`. -/
example : EnumList [("Red".toList, ", ".toList), ("Green".toList, ",\n ".toList), ("Blue".toList, [])] ∧
    enumText [("Red".toList, ", ".toList), ("Green".toList, ",\n ".toList), ("Blue".toList, [])] =
      "Red, Green,\n Blue".toList := by
  refine ⟨⟨?_, by simp⟩, by decide⟩
  intro x hx
  simp at hx
  rcases hx with rfl | rfl | rfl <;> simp [PlainName, isSep]

/-- Beyond C45: a word that is followed by a blank is read. If it is not the name of an enumerator, the stream fails and the variable
stays as it was. -/
theorem C45_stream (l : List (Str × Str)) (h : EnumList l) (hd : (l.map (·.1)).Nodup) (before w after : Str) (c : Char) (e : Int)
    (h1 : ∀ c ∈ before, isBlank c = true) (hw : w ≠ []) (h2 : ∀ c ∈ w, isBlank c = false) (h3 : isBlank c = true) :
    (∀ i (hi : i < l.length), w = (l[i]'hi).1 → readStream (enumText l) (before ++ w ++ c :: after) e = ((i : Int), false)) ∧
    (w ∉ l.map (·.1) → readStream (enumText l) (before ++ w ++ c :: after) e = (e, true)) := by
  have e1 : (before ++ w ++ c :: after).dropWhile isBlank = w ++ c :: after := by
    rw [List.append_assoc, List.dropWhile_append_of_pos h1]
    cases w with
    | nil => exact absurd rfl hw
    | cons a w => simp [h2 a (by simp)]
  have h2' : ∀ c ∈ w, (!isBlank c) = true := fun c hc => by simp [h2 c hc]
  have e2 : (w ++ c :: after).takeWhile (fun c => !isBlank c) = w := by
    rw [List.takeWhile_append_of_pos h2']; simp [h3]
  have e3 : (w ++ c :: after).dropWhile (fun c => !isBlank c) = c :: after := by
    rw [List.dropWhile_append_of_pos h2']; simp [h3]
  obtain ⟨r1, r2, r3⟩ := C45_round_trip l h hd
  have key : readStream (enumText l) (before ++ w ++ c :: after) e = match fromStr w (enumText l) with
      | some i => (i, false)
      | none => (e, true) := by
    unfold readStream
    simp only [e1, e2, e3, if_neg hw]
    rfl
  constructor
  · intro i hi he
    have := r2 i hi
    rw [r1 i hi, ← he] at this
    rw [key, this]
  · intro hn
    rw [key, r3 w hn]

end Xo
