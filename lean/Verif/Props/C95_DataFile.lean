import Verif.Model.DataFile
import Verif.Lemmas.Num

/-!
C95: reading a file of values. Values with white space behind each of them are all read, in order, for every type whose texts can be read; a
value at the very end of the file is lost.
-/
namespace Xo.DataFile
open Xo Xo.Outc Xo.Spec

variable {T : Type}

namespace Spec
/-- White space. -/
def Blank (s : Str) : Prop := ∀ c ∈ s, isSpaceC c = true

/-- `t` is a text of `x` for the extraction `e`: behind white space and before white space it is read as `x`, and exactly its characters are
taken; at the end of the file it is read as `x`, too, and the end is noticed. -/
structure TextOf (e : Ext T) (x : T) (t : Str) : Prop where
  mid : ∀ (ws : Str) (c : Char) (r : Str), Blank ws → isSpaceC c = true → e ⟨ws ++ t ++ c :: r, false, false⟩ = (x, ⟨c :: r, false, false⟩)
  last : ∀ ws, Blank ws → e ⟨ws ++ t, false, false⟩ = (x, ⟨[], true, false⟩)

/-- Before the end of the file there is only white space: nothing is read, and the end is noticed. -/
def EndsAtEnd (e : Ext T) : Prop := ∀ ws, Blank ws → (e ⟨ws, false, false⟩).2.eof = true

/-- The text of a file: values, each with white space before and one or more behind. -/
inductive File (e : Ext T) : List T → Str → Prop
  | done (ws : Str) (h : Blank ws) : File e [] ws
  | value (ws t : Str) (x : T) (c : Char) (r : Str) (xs : List T) (h : Blank ws) (ht : TextOf e x t) (hc : isSpaceC c = true)
      (hr : File e xs (c :: r)) : File e (x :: xs) (ws ++ t ++ c :: r)
end Spec
open Spec

theorem extVec_stop (e : Ext T) (fuel : Nat) (s : IS) (v : List T) (h : s.good = false) : extVec e fuel s v = some (v, s) := by
  cases fuel <;> simp [extVec, h]

theorem file_read (e : Ext T) (he : EndsAtEnd e) {xs : List T} {text : Str} (h : File e xs text) :
    ∀ (fuel : Nat) (v : List T), xs.length < fuel → ∃ s, extVec e fuel ⟨text, false, false⟩ v = some (v ++ xs, s) ∧ s.eof = true := by
  induction h with
  | done ws hw =>
    intro fuel v hf
    cases fuel with
    | zero => simp at hf
    | succ fuel =>
      have h1 := he ws hw
      have h2 : (e ⟨ws, false, false⟩).2.good = false := by simp [IS.good, h1]
      refine ⟨_, ?_, h1⟩
      simp only [extVec, IS.good, Bool.not_false, Bool.and_self, if_true]
      rw [extVec_stop _ _ _ _ h2]
      simp only [h1, Bool.not_true, Bool.false_and, Bool.false_eq_true, if_false, List.append_nil]
  | value ws t x c r xs hw ht hc hr ih =>
    intro fuel v hf
    cases fuel with
    | zero => simp at hf
    | succ fuel =>
      obtain ⟨s, h1, h2⟩ := ih fuel (v ++ [x]) (by simpa using hf)
      refine ⟨s, ?_, h2⟩
      simp only [extVec, IS.good, Bool.not_false, Bool.and_self, if_true, ht.mid ws c r hw hc]
      rw [h1]; simp

/-- **C95.** A file of values, each followed by white space, is read completely and in order, and without an error if there is a value. -/
theorem C95_read_partial (e : Ext T) (he : EndsAtEnd e) {xs : List T} {text : Str} (h : File e xs text) (fuel : Nat) (hf : xs.length < fuel)
    (m1 m2 m3 : Str) (w : World) (hne : xs ≠ []) : readData e fuel m1 m2 m3 (some text) w = some (.returns xs, w) := by
  obtain ⟨s, h1, h2⟩ := file_read e he h fuel [] hf
  have h3 : xs.isEmpty = false := by simpa using hne
  simp only [readData, h1, List.nil_append, Option.map_some, h2, Bool.not_true, Bool.false_eq_true, if_false, h3]

/-- A vector that has elements keeps them in front. -/
theorem C95_append (e : Ext T) (he : EndsAtEnd e) {xs : List T} {text : Str} (h : File e xs text) (fuel : Nat) (hf : xs.length < fuel) (v : List T) :
    ∃ s, extVec e fuel ⟨text, false, false⟩ v = some (v ++ xs, s) := by
  obtain ⟨s, h1, _⟩ := file_read e he h fuel v hf
  exact ⟨s, h1⟩

theorem file_cut (e : Ext T) {xs : List T} {text : Str} (h : File e xs text) (x : T) (t : Str) (ht : TextOf e x t) :
    ∀ (fuel : Nat) (v : List T), xs.length < fuel → extVec e fuel ⟨text ++ t, false, false⟩ v = some (v ++ xs, ⟨[], true, false⟩) := by
  induction h with
  | done ws hw =>
    intro fuel v hf
    cases fuel with
    | zero => simp at hf
    | succ fuel =>
      simp only [extVec, IS.good, Bool.not_false, Bool.and_self, if_true, ht.last ws hw]
      rw [extVec_stop _ _ _ _ rfl]; simp
  | value ws t' x' c r xs hw ht' hc hr ih =>
    intro fuel v hf
    cases fuel with
    | zero => simp at hf
    | succ fuel =>
      have h1 := ih fuel (v ++ [x']) (by simpa using hf)
      rw [List.append_assoc, List.cons_append]
      simp only [extVec, IS.good, Bool.not_false, Bool.and_self, if_true, ht'.mid ws c _ hw hc]
      rw [List.cons_append] at h1
      rw [h1]; simp

/-- **C95 is violated by files that end with a value**: the last value is lost, and there is no error unless it is the only one. -/
theorem C95_last_violated (e : Ext T) {xs : List T} {text : Str} (h : File e xs text) (x : T) (t : Str) (ht : TextOf e x t)
    (fuel : Nat) (hf : xs.length < fuel) (m1 m2 m3 : Str) (w : World) :
    (xs ≠ [] → readData e fuel m1 m2 m3 (some (text ++ t)) w = some (.returns xs, w)) ∧
    (xs = [] → w.ec = none → readData e fuel m1 m2 m3 (some (text ++ t)) w = some (.throws m2, { w with log := w.log ++ [m2] })) := by
  have h1 := file_cut e h x t ht fuel [] hf
  constructor
  · intro hne
    have h3 : xs.isEmpty = false := by simpa using hne
    simp only [readData, h1, List.nil_append, Option.map_some, Bool.not_true, Bool.false_eq_true, if_false, h3]
  · intro he hw
    subst he
    simp only [readData, h1, List.nil_append, Option.map_some, Bool.not_true, Bool.false_eq_true, if_false, List.isEmpty_nil, if_true,
      setErrorOrThrow, hw]

/-- Text that is no value: the values before it are read, the rest is not, and this is an error. -/
theorem C95_garbage (e : Ext T) {xs : List T} {text : Str} (h : File e xs text) (g : Str)
    (hg : ∀ ws, Blank ws → (e ⟨ws ++ g, false, false⟩).2.fail = true ∧ (e ⟨ws ++ g, false, false⟩).2.eof = false)
    (fuel : Nat) (hf : xs.length < fuel) (m1 m2 m3 : Str) (w : World) (hw : w.ec = none) :
    readData e fuel m1 m2 m3 (some (text ++ g)) w = some (.throws m1, { w with log := w.log ++ [m1] }) := by
  have key : ∀ (fuel : Nat) (v : List T), xs.length < fuel →
      ∃ s, extVec e fuel ⟨text ++ g, false, false⟩ v = some (v ++ xs, s) ∧ s.eof = false := by
    clear hf fuel
    induction h with
    | done ws hw =>
      intro fuel v hf
      cases fuel with
      | zero => simp at hf
      | succ fuel =>
        obtain ⟨h1, h2⟩ := hg ws hw
        have h3 : (e ⟨ws ++ g, false, false⟩).2.good = false := by simp [IS.good, h1]
        refine ⟨_, ?_, h2⟩
        simp only [extVec, IS.good, Bool.not_false, Bool.and_self, if_true]
        rw [extVec_stop _ _ _ _ h3]
        simp [h1]
    | value ws t' x' c r xs hw ht' hc hr ih =>
      intro fuel v hf
      cases fuel with
      | zero => simp at hf
      | succ fuel =>
        obtain ⟨s, h1, h2⟩ := ih fuel (v ++ [x']) (by simpa using hf)
        refine ⟨s, ?_, h2⟩
        rw [List.append_assoc, List.cons_append]
        simp only [extVec, IS.good, Bool.not_false, Bool.and_self, if_true, ht'.mid ws c _ hw hc]
        rw [List.cons_append] at h1
        rw [h1]; simp
  obtain ⟨s, h1, h2⟩ := key fuel [] hf
  simp only [readData, h1, List.nil_append, Option.map_some, h2, Bool.not_false, if_true, setErrorOrThrow, hw]

/-- **C95.** A file that cannot be opened and a file without values are errors: they throw, or set the error code and give no values. -/
theorem C95_errors (e : Ext T) (he : EndsAtEnd e) (ws : Str) (hws : Blank ws) (fuel : Nat) (hf : 0 < fuel) (m1 m2 m3 : Str) (w : World) :
    (w.ec = none → readData e fuel m1 m2 m3 none w = some (.throws m3, { w with log := w.log ++ [m3] }) ∧
      readData e fuel m1 m2 m3 (some ws) w = some (.throws m2, { w with log := w.log ++ [m2] })) ∧
    (∀ c, w.ec = some c → readData e fuel m1 m2 m3 none w = some (.returns [], ⟨some (c.set (-1) m3), w.log ++ [m3]⟩) ∧
      readData e fuel m1 m2 m3 (some ws) w = some (.returns [], ⟨some (c.set (-1) m2), w.log ++ [m2]⟩)) := by
  obtain ⟨s, h1, h2⟩ := file_read e he (.done ws hws) fuel [] (by simpa using hf)
  constructor
  · intro hw
    simp [readData, h1, h2, setErrorOrThrow, hw]
  · intro c hw
    simp [readData, h1, h2, setErrorOrThrow, hw]

/-! ## Words, integers and pairs -/

theorem formatted_mid {T : Type} (d : T) (rd : Str → Option T × Str) {ws t : Str} {x : T} {r : Str} (hw : Blank ws) (hne : t ≠ [])
    (hh : ∀ c, t.head? = some c → isSpaceC c = false) (h : rd (t ++ r) = (some x, r)) :
    formatted d rd ⟨ws ++ t ++ r, false, false⟩ = (x, ⟨r, r.isEmpty, false⟩) := by
  have h1 : (ws ++ t ++ r).dropWhile isSpaceC = t ++ r := by
    rw [List.append_assoc]
    refine dropWhile_skip hw ?_
    intro c hc
    cases t with
    | nil => exact absurd rfl hne
    | cons y t => exact hh c (by simpa using hc)
  obtain ⟨y, ys, hy⟩ : ∃ y ys, t ++ r = y :: ys := by
    cases t with
    | nil => exact absurd rfl hne
    | cons y t => exact ⟨y, t ++ r, rfl⟩
  simp only [formatted, IS.good, Bool.not_false, Bool.and_self, Bool.not_true, Bool.false_eq_true, if_false, h1]
  rw [hy]
  simp only
  rw [← hy, h]; rfl

theorem formatted_textOf {T : Type} (d : T) (rd : Str → Option T × Str) {t : Str} {x : T} (hne : t ≠ [])
    (hh : ∀ c, t.head? = some c → isSpaceC c = false) (h : ∀ r, (∀ c, r.head? = some c → isSpaceC c = true) → rd (t ++ r) = (some x, r)) :
    TextOf (formatted d rd) x t := by
  constructor
  · intro ws c r hw hc
    exact formatted_mid d rd hw hne hh (h (c :: r) (by intro y hy; cases hy; exact hc))
  · intro ws hw
    have := formatted_mid d rd (r := []) hw hne hh (h [] (by simp))
    simpa using this

theorem formatted_end {T : Type} (d : T) (rd : Str → Option T × Str) : EndsAtEnd (formatted d rd) := by
  intro ws hw
  have h1 : ws.dropWhile isSpaceC = [] := by
    have := dropWhile_skip (p := isSpaceC) (ws := ws) (s := []) hw (by simp)
    simpa using this
  simp [formatted, IS.good, h1]

/-- **C95.** Every word without white space is a text of itself. -/
theorem C95_word (t : Str) (hne : t ≠ []) (h : ∀ c ∈ t, isSpaceC c = false) : TextOf extWord t t ∧ EndsAtEnd extWord := by
  refine ⟨formatted_textOf [] _ hne (fun c hc => h c (List.mem_of_head? hc)) ?_, formatted_end _ _⟩
  intro r hr
  have h1 : (t ++ r).takeWhile (!isSpaceC ·) = t ∧ (t ++ r).dropWhile (!isSpaceC ·) = r := by
    have h2 : ∀ c ∈ t, (!isSpaceC c) = true := fun c hc => by simp [h c hc]
    constructor
    · rw [List.takeWhile_append_of_pos h2]
      cases r with
      | nil => simp
      | cons y r => simp [hr y rfl]
    · rw [List.dropWhile_append_of_pos h2]
      cases r with
      | nil => simp
      | cons y r => simp [hr y rfl]
  simp only [h1.1, h1.2]

/-- **C95.** The text of every `int` is read as that `int`. -/
theorem C95_int (v : Int) (hv : -2 ^ 31 ≤ v ∧ v < 2 ^ 31) : TextOf extInt v (intToStr v) ∧ EndsAtEnd extInt := by
  obtain ⟨h1, h2, h3⟩ := natToStr_spec v.natAbs
  have key : ∀ r : Str, (∀ c, r.head? = some c → isSpaceC c = true) → (natToStr v.natAbs ++ r).takeWhile isDigitC = natToStr v.natAbs ∧
      (natToStr v.natAbs ++ r).dropWhile isDigitC = r := by
    intro r hr
    have hd : ∀ c, r.head? = some c → isDigitC c = false := by
      intro c hc
      cases hh : isDigitC c with
      | false => rfl
      | true => have := not_space_of_digit hh; rw [hr c hc] at this; cases this
    constructor
    · rw [List.takeWhile_append_of_pos h1]
      cases r with
      | nil => simp
      | cons y r => simp [hd y rfl]
    · rw [List.dropWhile_append_of_pos h1]
      cases r with
      | nil => simp
      | cons y r => simp [hd y rfl]
  have hempty : (natToStr v.natAbs).isEmpty = false := by simpa using h2
  have hval : digitsValue (natToStr v.natAbs) = v.natAbs := h3
  refine ⟨formatted_textOf 0 _ ?_ ?_ ?_, formatted_end _ _⟩
  · unfold intToStr; split <;> simp [h2]
  · intro c hc
    unfold intToStr at hc
    split at hc
    · cases hc; decide
    · exact not_space_of_digit (h1 c (List.mem_of_head? hc))
  · intro r hr
    obtain ⟨k1, k2⟩ := key r hr
    unfold intToStr
    by_cases hn : v < 0
    · rw [if_pos hn]
      simp only [readIntChars, List.cons_append, signChars, k1, k2, hempty, hval, Bool.false_eq_true, if_false, if_true]
      have : -((v.natAbs : Nat) : Int) = v := by omega
      rw [this, if_pos hv]
    · rw [if_neg hn]
      have hsp : signChars (natToStr v.natAbs ++ r) = (false, natToStr v.natAbs ++ r) := by
        cases hh : natToStr v.natAbs with
        | nil => exact absurd hh h2
        | cons y ys =>
          have hy := h1 y (by rw [hh]; simp)
          rw [List.cons_append]
          unfold signChars
          split
          · next e => cases e; exact absurd hy (by decide)
          · next e => cases e; exact absurd hy (by decide)
          · rfl
      unfold readIntChars
      simp only [hsp, k1, k2, hempty, hval, Bool.false_eq_true, if_false]
      have : ((v.natAbs : Nat) : Int) = v := by omega
      rw [this, if_pos hv]

/-- **C95.** A pair is two texts with white space between them. -/
theorem C95_pair {A B : Type} (ea : Ext A) (eb : Ext B) (a : A) (b : B) (ta tb : Str) (c : Char) (ws : Str) (ha : TextOf ea a ta) (hb : TextOf eb b tb)
    (hc : isSpaceC c = true) (hw : Blank ws) : TextOf (extPair ea eb) (a, b) (ta ++ c :: ws ++ tb) := by
  have hcw : Blank (c :: ws) := by
    intro x hx
    rcases List.mem_cons.1 hx with rfl | hx
    · exact hc
    · exact hw x hx
  constructor
  · intro ws' c' r hw' hc'
    have h1 := ha.mid ws' c (ws ++ tb ++ c' :: r) hw' hc
    have h2 := hb.mid (c :: ws) c' r hcw hc'
    simp only [extPair]
    rw [show ws' ++ (ta ++ c :: ws ++ tb) ++ c' :: r = ws' ++ ta ++ c :: (ws ++ tb ++ c' :: r) by simp, h1]
    simp only
    rw [show c :: (ws ++ tb ++ c' :: r) = c :: ws ++ tb ++ c' :: r by simp, h2]
  · intro ws' hw'
    have h1 := ha.mid ws' c (ws ++ tb) hw' hc
    have h2 := hb.last (c :: ws) hcw
    simp only [extPair]
    rw [show ws' ++ (ta ++ c :: ws ++ tb) = ws' ++ ta ++ c :: (ws ++ tb) by simp, h1]
    simp only
    rw [show c :: (ws ++ tb) = c :: ws ++ tb by simp, h2]

/-- Non-vacuity: three numbers, the last one at the end of a line, or of the file. -/
example : readData extInt 10 [] [] [] (some " 12 -7\n30\n".toList) ⟨none, []⟩ = some (.returns [12, -7, 30], ⟨none, []⟩) ∧
    readData extInt 10 [] [] [] (some "12 -7\n30".toList) ⟨none, []⟩ = some (.returns [12, -7], ⟨none, []⟩) := by
  constructor <;> rfl

example : File extInt [12, -7] "12 -7\n".toList := by
  have h1 := (C95_int 12 (by decide)).1
  have h2 := (C95_int (-7) (by decide)).1
  exact .value [] "12".toList 12 ' ' _ _ (by simp [Blank]) h1 (by decide)
    (.value [' '] "-7".toList (-7) '\n' [] _ (by simp [Blank]; decide) h2 (by decide) (.done _ (by simp [Blank]; decide)))


/-- **C95.** Integers followed by text that does not begin like a number: this is an error, whatever the text is. -/
theorem C95_int_garbage {xs : List Int} {text : Str} (h : File extInt xs text) (c : Char) (g : Str) (hs : isSpaceC c = false)
    (hd : isDigitC c = false) (hm : c ≠ '-') (hp : c ≠ '+') (fuel : Nat) (hf : xs.length < fuel) (m1 m2 m3 : Str) (w : World) (hw : w.ec = none) :
    readData extInt fuel m1 m2 m3 (some (text ++ c :: g)) w = some (.throws m1, { w with log := w.log ++ [m1] }) := by
  refine C95_garbage extInt h (c :: g) ?_ fuel hf m1 m2 m3 w hw
  intro ws hws
  have h1 : (ws ++ c :: g).dropWhile isSpaceC = c :: g := dropWhile_skip hws (by intro x hx; cases hx; exact hs)
  have h2 : signChars (c :: g) = (false, c :: g) := by
    unfold signChars
    split
    · rename_i heq; cases heq; exact absurd rfl hm
    · rename_i heq; cases heq; exact absurd rfl hp
    · rfl
  have h3 : readIntChars (c :: g) = (none, c :: g) := by
    simp [readIntChars, h2, hd]
  simp [extInt, formatted, IS.good, h1, h3]

example : readData extInt 10 "wrong".toList [] [] (some "12 -7 x 3\n".toList) ⟨none, []⟩ = some (.throws "wrong".toList, ⟨none, ["wrong".toList]⟩) :=
  C95_int_garbage (xs := [12, -7]) (text := "12 -7 ".toList)
    (.value [] "12".toList 12 ' ' _ _ (by simp [Blank]) (C95_int 12 (by decide)).1 (by decide)
      (.value [' '] "-7".toList (-7) ' ' [] _ (by simp [Blank]; decide) (C95_int (-7) (by decide)).1 (by decide) (.done _ (by simp [Blank]; decide))))
    'x' " 3\n".toList (by decide) (by decide) (by decide) (by decide) 10 (by decide) _ _ _ _ rfl

end Xo.DataFile
