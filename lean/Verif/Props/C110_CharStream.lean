import Verif.Model.CharStream
import Verif.Props.C29_IntText
import Verif.Props.C27_Replace

/-!
C110: reading numbers, characters and lines from a text.
-/
namespace Xo.CharS
open Xo
open _root_.Xo.Spec (LeadingNumber OccursAt)

namespace Spec
/-- The values of a type. -/
def InRange : Kind → Int → Prop
  | .long, v => -2 ^ 63 ≤ v ∧ v < 2 ^ 63
  | .ulong, v => 0 ≤ v ∧ v < 2 ^ 64
  | .int, v => -2 ^ 31 ≤ v ∧ v < 2 ^ 31
  | .uint, v => 0 ≤ v ∧ v < 2 ^ 32
  | .short, v => -2 ^ 15 ≤ v ∧ v < 2 ^ 15
  | .ushort, v => 0 ≤ v ∧ v < 2 ^ 16

/-- The text of some numbers, each behind its own blanks. -/
def layout : List (Str × Int) → Str
  | [] => []
  | (b, v) :: vs => b ++ intToStr v ++ layout vs

/-- There is no zero in the text. -/
def NoZero (s : Str) : Prop := ∀ c ∈ s, c ≠ Char.ofNat 0

/-- The arguments of the operation contain no zero. -/
def Proper : Op → Prop
  | .tryStr t => NoZero t
  | .tryChar c => c ≠ Char.ofNat 0
  | .seek t => NoZero t
  | .seekPast t => NoZero t
  | _ => True
end Spec
open _root_.Xo.CharS.Spec

/-! ### Integers -/

theorem strtol_range (s : Str) : -2 ^ 63 ≤ (strtol s).getD 0 ∧ (strtol s).getD 0 < 2 ^ 63 := by
  unfold strtol
  cases readInt s with
  | none => simp
  | some p =>
    obtain ⟨neg, n⟩ := p
    simp only [Option.map_some, Option.getD_some]
    split <;> split <;> omega

theorem strtoul_range (s : Str) : (strtoul s).getD 0 < 2 ^ 64 := by
  unfold strtoul
  cases readInt s with
  | none => simp
  | some p =>
    obtain ⟨neg, n⟩ := p
    simp only [Option.map_some, Option.getD_some]
    split
    · omega
    · split <;> omega

/-- The value that is read is always one of the type. -/
theorem conv_range (k : Kind) (s : Str) : InRange k (conv k s) := by
  have h1 := strtol_range s
  have h2 := strtoul_range s
  cases k <;> simp only [conv, InRange, toInt32, toInt16]
  · exact h1
  · omega
  · omega
  · omega
  · omega
  · omega

theorem conv_text (k : Kind) (v : Int) (tail : Str) (ht : ∀ c, tail.head? = some c → isDigitC c = false) (hv : InRange k v) :
    conv k (intToStr v ++ tail) = v := by
  have h := readInt_intToStr v tail ht
  have hl : (-2 ^ 63 ≤ v ∧ v < 2 ^ 63) → strtol (intToStr v ++ tail) = some v := by
    intro hr
    unfold strtol
    rw [h]
    simp only [Option.map_some, Option.some.injEq]
    by_cases hv : v < 0 <;> simp only [hv, decide_true, decide_false, if_true, Bool.false_eq_true, if_false] <;> split <;> omega
  have hu : (0 ≤ v ∧ v < 2 ^ 64) → strtoul (intToStr v ++ tail) = some v.toNat := by
    intro hr
    unfold strtoul
    rw [h]
    simp only [Option.map_some, Option.some.injEq]
    have hv : ¬ v < 0 := by omega
    simp only [hv, decide_false, Bool.false_eq_true, if_false]
    split <;> omega
  cases k <;> simp only [InRange] at hv <;> simp only [conv, toInt32, toInt16]
  · rw [hl hv]; rfl
  · rw [hu hv]; simp; omega
  · rw [hl (by omega)]; simp only [Option.getD_some]; omega
  · rw [hu (by omega)]; simp only [Option.getD_some]; omega
  · rw [hl (by omega)]; simp only [Option.getD_some]; omega
  · rw [hu (by omega)]; simp only [Option.getD_some]; omega

theorem digit_head {v : Int} : ∃ c cs, intToStr v = c :: cs ∧ (isDigitC c = true ∨ c = '-') := by
  obtain ⟨h1, h2, -⟩ := natToStr_spec v.natAbs
  unfold intToStr
  split
  · exact ⟨_, _, rfl, .inr rfl⟩
  · cases hh : natToStr v.natAbs with
    | nil => exact absurd hh h2
    | cons x xs => exact ⟨x, xs, rfl, .inl (h1 x (by rw [hh]; simp))⟩

theorem dropDigits {ds tail : Str} (hd : ∀ c ∈ ds, isDigitC c = true) (ht : ∀ c, tail.head? = some c → isDigitC c = false) :
    (ds ++ tail).dropWhile isDigitC = tail := dropWhile_skip hd ht

theorem digit_nospace {c : Char} (h : isDigitC c = true ∨ c = '-') : isSpaceC c = false := by
  rcases h with h | rfl
  · simp only [isDigitC, Bool.and_eq_true, decide_eq_true_eq] at h
    have h1 : c ≠ ' ' := by rintro rfl; revert h; decide
    simp [isSpaceC, h1]
    omega
  · decide

theorem behind_text (v : Int) (tail : Str) (ht : ∀ c, tail.head? = some c → isDigitC c = false) : behind (intToStr v ++ tail) = tail := by
  obtain ⟨h1, h2, -⟩ := natToStr_spec v.natAbs
  obtain ⟨c, cs, e, hc⟩ := digit_head (v := v)
  have hs : (intToStr v ++ tail).dropWhile isSpaceC = intToStr v ++ tail := by
    rw [e]; simp [digit_nospace hc]
  unfold behind
  simp only [hs]
  by_cases hv : v < 0
  · have : intToStr v = '-' :: natToStr v.natAbs := by unfold intToStr; rw [if_pos hv]
    rw [this]
    exact dropDigits h1 ht
  · have en : intToStr v = natToStr v.natAbs := by unfold intToStr; rw [if_neg hv]
    rw [en] at e ⊢
    have hcd : isDigitC c = true := h1 c (by rw [e]; simp)
    have hm : c ≠ '-' := by rintro rfl; revert hcd; decide
    have hp : c ≠ '+' := by rintro rfl; revert hcd; decide
    have : unsign (natToStr v.natAbs ++ tail) = natToStr v.natAbs ++ tail := by
      rw [e]
      simp only [List.cons_append]
      unfold unsign
      split
      · next h => injection h with h1 h2; exact absurd h1 hm
      · next h => injection h with h1 h2; exact absurd h1 hp
      · rfl
    rw [this]
    exact dropDigits h1 ht

theorem taken_text (v : Int) (tail : Str) (ht : ∀ c, tail.head? = some c → isDigitC c = false) : taken (intToStr v ++ tail) = (intToStr v).length := by
  unfold taken
  rw [readInt_intToStr v tail ht, behind_text v tail ht]
  simp

theorem taken_le (s : Str) : taken s ≤ s.length := by unfold taken; split <;> omega

/-- A number has at least one character. -/
theorem taken_pos {s : Str} (h : (readInt s).isSome) : 0 < taken s := by
  have hd := (List.dropWhile_suffix isSpaceC (l := s)).length_le
  unfold taken
  rw [if_pos h]
  suffices hh : (behind s).length < (s.dropWhile isSpaceC).length by omega
  rw [readInt_eq] at h
  unfold behind
  generalize s.dropWhile isSpaceC = t at *
  have key : ∀ (b : Bool) (t' : Str), (match readDigits 0 false t' with | (n, true) => some (b, n) | (_, false) => none).isSome = true →
      (t'.dropWhile isDigitC).length < t'.length := by
    intro b t' h
    cases t' with
    | nil => simp [readDigits] at h
    | cons c cs =>
      by_cases hc : isDigitC c = true
      · rw [List.dropWhile_cons, if_pos hc]
        exact Nat.lt_succ_of_le (List.dropWhile_suffix _).length_le
      · simp [readDigits, hc] at h
  have h2 := key _ _ h
  have h3 : (signSplit t).2 = unsign t := by unfold signSplit unsign; split <;> simp_all
  rw [h3] at h2
  have h4 : (unsign t).length ≤ t.length := by unfold unsign; split <;> simp
  omega

/-! ### Single steps -/

/-- What is true of every stream that is used properly. -/
structure Sound (s : Stream) : Prop where
  pos : s.pos ≤ s.text.length
  eof : s.eof = true → s.pos = s.text.length

/-- What one operation may change. -/
structure Later (s s' : Stream) : Prop where
  text : s'.text = s.text
  delims : s'.delims = s.delims
  pos : s.pos ≤ s'.pos
  fail : s.fail = true → s'.fail = true
  eof : s.eof = true → s'.eof = true

theorem Later.refl (s : Stream) : Later s s := ⟨rfl, rfl, Nat.le_refl _, id, id⟩

theorem Later.trans {a b c : Stream} (h1 : Later a b) (h2 : Later b c) : Later a c :=
  ⟨h2.text.trans h1.text, h2.delims.trans h1.delims, Nat.le_trans h1.pos h2.pos, h2.fail ∘ h1.fail, h2.eof ∘ h1.eof⟩

theorem testEof_sound {s : Stream} (h : s.pos ≤ s.text.length) (he : s.eof = true → s.pos = s.text.length) : Sound s.testEof.2 ∧ Later s s.testEof.2 := by
  unfold Stream.testEof
  split
  · next e => exact ⟨⟨h, fun _ => e⟩, ⟨rfl, rfl, Nat.le_refl _, id, fun _ => rfl⟩⟩
  · exact ⟨⟨h, he⟩, .refl _⟩

theorem rest_length (s : Stream) : s.rest.length = s.text.length - s.pos := by simp [Stream.rest]

theorem skip_ok {s : Stream} (h : Sound s) : ∃ s', s.skip = .ok s' ∧ Sound s' ∧ Later s s' ∧ s'.fail = s.fail ∧
    s'.rest = s.rest.dropWhile (isDelim s.delims) := by
  unfold Stream.skip
  rw [if_pos h.pos]
  have hn : (s.rest.takeWhile (isDelim s.delims)).length ≤ s.text.length - s.pos := by
    rw [← rest_length]; exact (List.takeWhile_prefix _).length_le
  have hp := h.pos
  obtain ⟨h1, h2⟩ := testEof_sound (s := { s with pos := s.pos + (s.rest.takeWhile (isDelim s.delims)).length }) (by simp only; omega)
    (by intro e; have := h.eof e; simp only; omega)
  refine ⟨_, rfl, h1, ?_, ?_, ?_⟩
  · exact Later.trans (b := { s with pos := s.pos + (s.rest.takeWhile (isDelim s.delims)).length }) ⟨rfl, rfl, by simp, id, id⟩ h2
  · unfold Stream.testEof; split <;> rfl
  · have : ∀ a : Stream, a.testEof.2.rest = a.rest := by intro a; unfold Stream.testEof; split <;> rfl
    rw [this]
    show s.text.drop (s.pos + _) = _
    rw [← List.drop_drop]
    show s.rest.drop _ = _
    generalize s.rest = r
    clear * -
    induction r with
    | nil => rfl
    | cons c r ih =>
      rw [List.takeWhile_cons, List.dropWhile_cons]
      split
      · exact ih
      · rfl

theorem endPos_sound {s : Stream} (h : Sound s) {n : Nat} (hn : n ≤ s.rest.length) : Sound (s.endPos n) ∧ Later s (s.endPos n) := by
  rw [rest_length] at hn
  have hp := h.pos
  unfold Stream.endPos
  split
  · exact ⟨⟨h.pos, h.eof⟩, ⟨rfl, rfl, Nat.le_refl _, fun _ => rfl, id⟩⟩
  · refine ⟨⟨by simp only; omega, ?_⟩, ⟨rfl, rfl, by simp, id, id⟩⟩
    intro e
    have := h.eof e
    simp only; omega

theorem num_ok {s : Stream} (h : Sound s) (k : Kind) : ∃ s', s.num k = .ok (conv k (s.rest.dropWhile (isDelim s.delims)), s') ∧ Sound s' ∧ Later s s' ∧
    s'.fail = (s.fail || decide (taken (s.rest.dropWhile (isDelim s.delims)) = 0)) ∧
    s'.rest = (s.rest.dropWhile (isDelim s.delims)).drop (taken (s.rest.dropWhile (isDelim s.delims))) := by
  obtain ⟨s1, h1, h2, h3, h4, h5⟩ := skip_ok h
  unfold Stream.num
  rw [h1]
  simp only [Res.bind]
  obtain ⟨h6, h7⟩ := endPos_sound h2 (taken_le s1.rest)
  refine ⟨_, by rw [h5], by rw [← h5]; exact h6, by rw [← h5]; exact h3.trans h7, ?_, ?_⟩
  · rw [← h5]
    unfold Stream.endPos
    split
    · next e => simp [e]
    · next e => simp [e, h4]
  · rw [← h5]
    unfold Stream.endPos
    split
    · next e => simp only [e, List.drop_zero]; rfl
    · show s1.text.drop _ = (s1.text.drop _).drop _
      rw [List.drop_drop]

theorem getc_ok {s : Stream} (h : Sound s) : ∃ c s', s.getc = .ok (c, s') ∧ Sound s' ∧ Later s s' := by
  unfold Stream.getc Stream.testEof
  have hp := h.pos
  by_cases e : s.pos = s.text.length
  · rw [if_pos e]
    exact ⟨_, _, rfl, ⟨h.pos, fun _ => e⟩, ⟨rfl, rfl, Nat.le_refl _, id, fun _ => rfl⟩⟩
  · rw [if_neg e]
    simp only [Bool.false_eq_true, if_false, Stream.cur, if_pos hp, Res.bind]
    refine ⟨_, _, rfl, ⟨by simp only; omega, fun e' => absurd (h.eof e') e⟩, ⟨rfl, rfl, by simp, id, id⟩⟩

theorem peekc_ok {s : Stream} (h : Sound s) : ∃ c s', s.peekc = .ok (c, s') ∧ Sound s' ∧ Later s s' := by
  unfold Stream.peekc Stream.testEof
  have hp := h.pos
  by_cases e : s.pos = s.text.length
  · rw [if_pos e]
    exact ⟨_, _, rfl, ⟨h.pos, fun _ => e⟩, ⟨rfl, rfl, Nat.le_refl _, id, fun _ => rfl⟩⟩
  · rw [if_neg e]
    simp only [Bool.false_eq_true, if_false, Stream.cur, if_pos hp, Res.bind]
    exact ⟨_, _, rfl, h, .refl _⟩

theorem eqN_iff {t : Str} (ht : NoZero t) : ∀ r : Str, eqN t.length r t = true ↔ t <+: r := by
  induction t with
  | nil => intro r; simp [eqN]
  | cons c t ih =>
    intro r
    have hc : c ≠ Char.ofNat 0 := ht c (by simp)
    have ih := ih (fun d hd => ht d (by simp [hd]))
    cases r with
    | nil => simp [eqN, Ne.symm hc]
    | cons d r =>
      simp only [List.length_cons, eqN, List.headD_cons, List.tail_cons]
      by_cases e : d = c
      · subst e
        simp [hc, ih, List.cons_prefix_cons]
      · simp [e, List.cons_prefix_cons, Ne.symm e]

theorem tryStr_ok {s : Stream} (h : Sound s) {t : Str} (ht : NoZero t) : ∃ b s', s.tryStr t = .ok (b, s') ∧ Sound s' ∧ Later s s' := by
  unfold Stream.tryStr
  rw [if_pos h.pos]
  split
  · next e =>
    have := ((eqN_iff ht _).1 e).length_le
    rw [rest_length] at this
    have hp := h.pos
    refine ⟨_, _, rfl, ⟨by simp only; omega, fun e => ?_⟩, ⟨rfl, rfl, by simp, id, id⟩⟩
    have := h.eof e
    simp only; omega
  · exact ⟨_, _, rfl, h, .refl _⟩

theorem tryChar_ok {s : Stream} (h : Sound s) {c : Char} (hc : c ≠ Char.ofNat 0) : ∃ b s', s.tryChar c = .ok (b, s') ∧ Sound s' ∧ Later s s' := by
  unfold Stream.tryChar Stream.cur
  rw [if_pos h.pos]
  simp only [Res.bind]
  split
  · next e =>
    have hl : 0 < s.rest.length := by
      cases hr : s.rest with
      | nil => rw [hr] at e; exact absurd e.symm hc
      | cons _ _ => simp
    rw [rest_length] at hl
    refine ⟨_, _, rfl, ⟨by simp only; omega, fun e => ?_⟩, ⟨rfl, rfl, by simp, id, id⟩⟩
    have := h.eof e
    omega
  · exact ⟨_, _, rfl, h, .refl _⟩

theorem cstr_le (s : Str) : (cstr s).length ≤ s.length := (List.takeWhile_prefix _).length_le

theorem cstr_id' {t : Str} (ht : NoZero t) : cstr t = t := by
  unfold cstr
  have := List.takeWhile_append_of_pos (p := fun c => decide (c ≠ Char.ofNat 0)) (l₁ := t) (l₂ := []) (by intro c hc; simpa using ht c hc)
  simpa using this

theorem seek_ok {s : Stream} (h : Sound s) {t : Str} (ht : NoZero t) : ∃ b s', s.seek t = .ok (b, s') ∧ Sound s' ∧ Later s s' ∧
    (b = true → s'.pos + t.length ≤ s'.text.length) := by
  unfold Stream.seek
  split
  · next hg =>
    rw [if_pos h.pos]
    split
    · next i hi =>
      have := (strFind_some hi).2
      rw [cstr_id' ht] at this
      have h2 := cstr_le s.rest
      rw [rest_length] at h2
      have hp := h.pos
      refine ⟨_, _, rfl, ⟨by simp only; omega, fun e => ?_⟩, ⟨rfl, rfl, by simp, id, id⟩, fun _ => by simp only; omega⟩
      have := h.eof e
      simp only; omega
    · exact ⟨_, _, rfl, ⟨h.pos, h.eof⟩, ⟨rfl, rfl, Nat.le_refl _, fun _ => rfl, id⟩, by simp⟩
  · exact ⟨_, _, rfl, ⟨h.pos, h.eof⟩, ⟨rfl, rfl, Nat.le_refl _, fun _ => rfl, id⟩, by simp⟩

theorem seekPast_ok {s : Stream} (h : Sound s) {t : Str} (ht : NoZero t) : ∃ b s', s.seekPast t = .ok (b, s') ∧ Sound s' ∧ Later s s' := by
  obtain ⟨b, s1, h1, h2, h3, h4⟩ := seek_ok h ht
  unfold Stream.seekPast
  rw [h1]
  simp only [Res.bind]
  cases b with
  | false => exact ⟨_, _, rfl, h2, h3⟩
  | true =>
    have h4 := h4 rfl
    rw [if_pos rfl]
    obtain ⟨h5, h6⟩ := testEof_sound (s := { s1 with pos := s1.pos + t.length }) h4 (by intro e; have := h2.eof e; simp only; omega)
    exact ⟨_, _, rfl, h5, h3.trans (Later.trans (b := { s1 with pos := s1.pos + t.length }) ⟨rfl, rfl, by simp, id, id⟩ h6)⟩

theorem lineLen_le (s : Str) : lineLen s ≤ s.length := (List.takeWhile_prefix _).length_le

theorem getLine_ok {s : Stream} (h : Sound s) : ∃ l s', s.getLine = .ok (l, s') ∧ Sound s' ∧ Later s s' := by
  unfold Stream.getLine Stream.testEof
  by_cases e : s.pos = s.text.length
  · rw [if_pos e]
    exact ⟨_, _, rfl, ⟨h.pos, fun _ => e⟩, ⟨rfl, rfl, Nat.le_refl _, id, fun _ => rfl⟩⟩
  · rw [if_neg e]
    simp only [Bool.false_eq_true, if_false, if_pos h.pos]
    split
    · obtain ⟨h1, h2⟩ := endPos_sound h (lineLen_le s.rest)
      exact ⟨_, _, rfl, h1, h2⟩
    · exact ⟨_, _, rfl, h, .refl _⟩

theorem step_ok {s : Stream} (h : Sound s) {o : Op} (ho : Proper o) : ∃ s', s.step o = .ok s' ∧ Sound s' ∧ Later s s' := by
  cases o with
  | num k => obtain ⟨s', h1, h2, h3, -⟩ := num_ok h k; exact ⟨s', by simp only [Stream.step, h1, Res.bind], h2, h3⟩
  | optNum k =>
    obtain ⟨s', h1, h2, h3, -⟩ := num_ok h k
    exact ⟨s', by simp only [Stream.step, Stream.optNum, h1, Res.bind], h2, h3⟩
  | getc => obtain ⟨_, s', h1, h2, h3⟩ := getc_ok h; exact ⟨s', by simp only [Stream.step, h1, Res.bind], h2, h3⟩
  | peekc => obtain ⟨_, s', h1, h2, h3⟩ := peekc_ok h; exact ⟨s', by simp only [Stream.step, h1, Res.bind], h2, h3⟩
  | tryStr t => obtain ⟨_, s', h1, h2, h3⟩ := tryStr_ok h ho; exact ⟨s', by simp only [Stream.step, h1, Res.bind], h2, h3⟩
  | tryChar c => obtain ⟨_, s', h1, h2, h3⟩ := tryChar_ok h ho; exact ⟨s', by simp only [Stream.step, h1, Res.bind], h2, h3⟩
  | seek t => obtain ⟨_, s', h1, h2, h3, -⟩ := seek_ok h ho; exact ⟨s', by simp only [Stream.step, h1, Res.bind], h2, h3⟩
  | seekPast t => obtain ⟨_, s', h1, h2, h3⟩ := seekPast_ok h ho; exact ⟨s', by simp only [Stream.step, h1, Res.bind], h2, h3⟩
  | getLine => obtain ⟨_, s', h1, h2, h3⟩ := getLine_ok h; exact ⟨s', by simp only [Stream.step, h1, Res.bind], h2, h3⟩

theorem run_ok (os : List Op) : ∀ {s : Stream}, Sound s → (∀ o ∈ os, Proper o) → ∃ s', s.run os = .ok s' ∧ Sound s' ∧ Later s s' := by
  induction os with
  | nil => intro s h _; exact ⟨s, rfl, h, .refl _⟩
  | cons o os ih =>
    intro s h hp
    obtain ⟨s1, h1, h2, h3⟩ := step_ok h (hp o (by simp))
    obtain ⟨s2, h4, h5, h6⟩ := ih h2 (fun o ho => hp o (by simp [ho]))
    exact ⟨s2, by rw [Stream.run, h1]; exact h4, h5, h3.trans h6⟩

/-! ### The claims -/

theorem make_sound (text delims : Str) : Sound (make text delims) := ⟨Nat.zero_le _, by simp [make]⟩

/-- **C110.** Any history of operations: nothing outside of the text is looked at, the position never goes back and stays in the text, a failure
stays, and the end of the text is only told there. -/
theorem C110_history (text delims : Str) (os more : List Op) (ho : ∀ o ∈ os ++ more, Proper o) :
    ∃ s s', (make text delims).run os = .ok s ∧ s.run more = .ok s' ∧ s'.text = text ∧ s.pos ≤ s'.pos ∧ s'.pos ≤ text.length ∧
      (s.fail = true → s'.fail = true) ∧ (s'.eof = true → s'.pos = text.length) := by
  obtain ⟨s, h1, h2, h3⟩ := run_ok os (make_sound text delims) (fun o h => ho o (by simp [h]))
  obtain ⟨s', h4, h5, h6⟩ := run_ok more h2 (fun o h => ho o (by simp [h]))
  have e : s'.text = text := h6.text.trans h3.text
  exact ⟨s, s', h1, h4, e, h6.pos, e ▸ h5.pos, h6.fail, fun x => e ▸ h5.eof x⟩

/-- **C110, violated.** With a zero as argument the position leaves the text, and the next look is undefined. -/
theorem C110_zero_violated (text delims : Str) (k : Kind) :
    ({ make text delims with pos := text.length }).run [.tryChar (Char.ofNat 0), .peekc] = .ub ∧
      ({ make text delims with pos := text.length }).run [.tryChar (Char.ofNat 0), .num k] = .ub ∧
      ({ make text delims with pos := text.length }).run [.tryStr [Char.ofNat 0, 'x'], .getc] = .ub := by
  have h1 : ¬ text.length + 1 ≤ text.length := by omega
  have h2 : ¬ text.length + 2 ≤ text.length := by omega
  refine ⟨?_, ?_, ?_⟩
  · simp [Stream.run, Stream.step, Stream.tryChar, Stream.cur, make, Stream.rest, Res.bind, Stream.peekc, Stream.testEof, -Nat.not_succ_le_self, h1]
  · simp [Stream.run, Stream.step, Stream.tryChar, Stream.cur, make, Stream.rest, Res.bind, Stream.num, Stream.skip, h1]
  · simp [Stream.run, Stream.step, Stream.tryStr, Stream.cur, make, Stream.rest, Res.bind, Stream.getc, Stream.testEof, eqN, h2]

theorem countLines_eq (s : Str) : ∀ n, countLines n s = n + s.count '\n' := by
  induction s with
  | nil => intro n; simp [countLines]
  | cons c s ih =>
    intro n
    rw [countLines, ih]
    by_cases h : c = '\n'
    · subst h; simp; omega
    · simp [h]

/-- **C110.** The number of the line: one more than the ends of lines before the position. -/
theorem C110_line_number (s : Stream) : s.lineNumber = 1 + (s.text.take s.pos).count '\n' := countLines_eq _ _

/-- The number of the line never gets smaller. -/
theorem C110_line_number_mono (text delims : Str) (os more : List Op) (ho : ∀ o ∈ os ++ more, Proper o) :
    ∃ s s', (make text delims).run os = .ok s ∧ s.run more = .ok s' ∧ s.lineNumber ≤ s'.lineNumber := by
  obtain ⟨s, h1, h2, h3⟩ := run_ok os (make_sound text delims) (fun o h => ho o (by simp [h]))
  obtain ⟨s', h4, h5, h6⟩ := run_ok more h2 (fun o h => ho o (by simp [h]))
  refine ⟨s, s', h1, h4, ?_⟩
  rw [C110_line_number, C110_line_number, h6.text]
  have : s.text.take s.pos <+: s.text.take s'.pos := List.take_prefix_take_left h6.pos
  have := this.sublist.count_le '\n'
  omega

/-- **C110.** Reading an integer fails if and only if no number stands behind the blanks. -/
theorem C110_fails (text delims : Str) (os : List Op) (k : Kind) (ho : ∀ o ∈ os, Proper o) :
    ∃ s v s', (make text delims).run os = .ok s ∧ s.num k = .ok (v, s') ∧
      (s'.fail = true ↔ s.fail = true ∨ ¬ ∃ neg n, LeadingNumber (s.rest.dropWhile (isDelim delims)) neg n) := by
  obtain ⟨s, h1, h2, h3⟩ := run_ok os (make_sound text delims) ho
  obtain ⟨s', h4, -, -, h5, -⟩ := num_ok h2 k
  have hd : s.delims = delims := h3.delims
  refine ⟨s, _, s', h1, h4, ?_⟩
  rw [h5, hd]
  simp only [← readInt_iff, Bool.or_eq_true, decide_eq_true_eq]
  refine or_congr_right ?_
  cases hr : readInt (s.rest.dropWhile (isDelim delims)) with
  | none => simp [taken, hr]
  | some p =>
    have := taken_pos (s := s.rest.dropWhile (isDelim delims)) (by rw [hr]; rfl)
    exact iff_of_false (by omega) (fun h => h ⟨p.1, p.2, rfl⟩)

/-- Delimiters that cannot be taken for numbers. -/
structure Delims (d : Str) : Prop where
  digit : ∀ c ∈ d, isDigitC c = false ∧ c ≠ '-'

/-- The usual delimiters. -/
example : Delims " \t\r\n\x0c\x0b".toList := ⟨by decide +kernel⟩

theorem skip_blanks {d b : Str} (hd : Delims d) (hb : ∀ c ∈ b, c ∈ cstr d) (v : Int) (tail : Str) :
    (b ++ (intToStr v ++ tail)).dropWhile (isDelim d) = intToStr v ++ tail := by
  obtain ⟨c, cs, e, hc⟩ := digit_head (v := v)
  refine dropWhile_skip (fun x hx => by simp [isDelim, hb x hx]) ?_
  intro x hx
  rw [e] at hx
  simp at hx
  subst hx
  have h0 : c ≠ Char.ofNat 0 := by
    rintro rfl
    rcases hc with h | h <;> revert h <;> decide
  have hn : c ∉ cstr d := by
    intro hm
    have := hd.digit c ((List.takeWhile_prefix _).subset hm)
    rcases hc with h | h
    · rw [this.1] at h; cases h
    · exact this.2 h
  simp [isDelim, h0, hn]

theorem blank_head {d b : Str} (hd : Delims d) (hb : ∀ c ∈ b, c ∈ cstr d) (hne : b ≠ []) (t : Str) :
    ∀ c, (b ++ t).head? = some c → isDigitC c = false := by
  intro c hc
  cases b with
  | nil => exact absurd rfl hne
  | cons x b =>
    simp at hc
    subst hc
    exact (hd.digit x ((List.takeWhile_prefix _).subset (hb x (by simp)))).1

theorem nums_ok {d : Str} (hd : Delims d) (k : Kind) (tail : Str) (ht : ∀ c, tail.head? = some c → isDigitC c = false) (vs : List (Str × Int)) :
    ∀ {s : Stream}, Sound s → s.delims = d → s.eof = false → s.rest = layout vs ++ tail → (∀ p ∈ vs, ∀ c ∈ p.1, c ∈ cstr d) → (∀ p ∈ vs.tail, p.1 ≠ []) →
      (∀ p ∈ vs, InRange k p.2) → ∃ s', s.nums k vs.length = .ok (vs.map (·.2), s') ∧ s'.rest = tail ∧ s'.fail = s.fail := by
  induction vs with
  | nil => intro s h _ _ hr _ _ _; exact ⟨s, rfl, by simpa [layout] using hr, rfl⟩
  | cons p vs ih =>
    intro s h hdl he hr hb hne hin
    obtain ⟨b, v⟩ := p
    have ht' : ∀ c, (layout vs ++ tail).head? = some c → isDigitC c = false := by
      cases vs with
      | nil => simpa [layout] using ht
      | cons q vs =>
        obtain ⟨b', v'⟩ := q
        have := blank_head hd (hb (b', v') (by simp)) (hne (b', v') (by simp)) (intToStr v' ++ layout vs ++ tail)
        intro c hc
        refine this c ?_
        rw [← hc]
        simp [layout]
    have hrest : s.rest.dropWhile (isDelim s.delims) = intToStr v ++ (layout vs ++ tail) := by
      rw [hr, hdl]
      have := skip_blanks hd (hb (b, v) (by simp)) v (layout vs ++ tail)
      rw [← this]
      simp [layout]
    obtain ⟨s1, h1, h2, h3, h4, h5⟩ := num_ok h k
    rw [hrest, conv_text k v _ ht' (hin (b, v) (by simp))] at h1
    rw [hrest, taken_text v _ ht'] at h4 h5
    have hlen : (intToStr v).length ≠ 0 := by
      obtain ⟨c, cs, e, -⟩ := digit_head (v := v)
      rw [e]; simp
    rw [List.drop_left] at h5
    have he1 : s1.eof = false := by
      obtain ⟨s0, g1, g2, g3, g4, g5⟩ := skip_ok h
      have : s1 = s0.endPos (taken s0.rest) := by
        have := h1
        unfold Stream.num at this
        rw [g1] at this
        simp only [Res.bind, Res.ok.injEq, Prod.mk.injEq] at this
        exact this.2.symm
      rw [this]
      have g6 : s0.eof = false := by
        cases hh : s0.eof with
        | false => rfl
        | true =>
          have := g2.eof hh
          have hl : s0.rest.length = 0 := by rw [rest_length]; omega
          rw [g5, hrest] at hl
          simp at hl
          exact absurd (by rw [hl.1]; rfl) hlen
      unfold Stream.endPos
      split <;> exact g6
    obtain ⟨s2, h6, h7, h8⟩ := ih h2 (h3.delims.trans hdl) he1 h5 (fun p hp => hb p (by simp [hp]))
      (fun p hp => hne p (by simp only [List.tail_cons]; exact List.mem_of_mem_tail hp)) (fun p hp => hin p (by simp [hp]))
    refine ⟨s2, ?_, h7, ?_⟩
    · rw [List.length_cons, Stream.nums, h1]
      simp only [Res.bind, h6, List.map_cons]
    · rw [h8, h4]; simp [hlen]

/-- **C110.** Numbers of the type, separated by delimiters: they are read in order, without failure, and the stream stands behind the last one. -/
theorem C110_numbers_partial (d tail : Str) (hd : Delims d) (k : Kind) (vs : List (Str × Int)) (hb : ∀ p ∈ vs, ∀ c ∈ p.1, c ∈ cstr d)
    (hne : ∀ p ∈ vs.tail, p.1 ≠ []) (hin : ∀ p ∈ vs, InRange k p.2) (ht : ∀ c, tail.head? = some c → isDigitC c = false) :
    ∃ s, (make (layout vs ++ tail) d).nums k vs.length = .ok (vs.map (·.2), s) ∧ s.rest = tail ∧ s.fail = false :=
  nums_ok hd k tail ht vs (make_sound _ _) rfl rfl (by simp [make, Stream.rest]) hb hne hin

/-- **C110, violated.** A number that the type does not have: another one is read, and nothing tells so. -/
theorem C110_range_violated (d b tail : Str) (hd : Delims d) (k : Kind) (v : Int) (hb : ∀ c ∈ b, c ∈ cstr d) (hv : ¬ InRange k v)
    (ht : ∀ c, tail.head? = some c → isDigitC c = false) :
    ∃ w s, (make (b ++ (intToStr v ++ tail)) d).num k = .ok (w, s) ∧ w ≠ v ∧ s.fail = false ∧ s.rest = tail := by
  obtain ⟨s, h1, -, -, h4, h5⟩ := num_ok (make_sound (b ++ (intToStr v ++ tail)) d) k
  have hr : (make (b ++ (intToStr v ++ tail)) d).rest.dropWhile (isDelim (make (b ++ (intToStr v ++ tail)) d).delims) = intToStr v ++ tail :=
    skip_blanks hd hb v tail
  rw [hr, taken_text v _ ht] at h4 h5
  have hlen : (intToStr v).length ≠ 0 := by
    obtain ⟨c, cs, e, -⟩ := digit_head (v := v)
    rw [e]; simp
  refine ⟨_, s, h1, ?_, ?_, ?_⟩
  · intro e
    exact hv (e ▸ conv_range k _)
  · rw [h4]; simp [hlen, make]
  · rw [h5, List.drop_left]

/-- Two of these numbers. -/
example : ∃ s, (make "4294967301".toList " ".toList).num .int = .ok (5, s) := ⟨⟨"4294967301".toList, 10, false, false, " ".toList⟩, by decide +kernel⟩
example : ∃ s, (make "-1".toList " ".toList).num .uint = .ok (4294967295, s) := ⟨⟨"-1".toList, 2, false, false, " ".toList⟩, by decide +kernel⟩

/-- **C110.** An optional number: it is there if a number stands behind the blanks and nothing failed before. -/
theorem C110_optional (s : Stream) (h : Sound s) (k : Kind) :
    ∃ o s', s.optNum k = .ok (o, s') ∧ (o.isSome ↔ s.fail = false ∧ ∃ neg n, LeadingNumber (s.rest.dropWhile (isDelim s.delims)) neg n) := by
  obtain ⟨s', h4, -, -, h5, -⟩ := num_ok h k
  unfold Stream.optNum
  rw [h4]
  refine ⟨_, _, rfl, ?_⟩
  simp only [← readInt_iff]
  rw [h5]
  cases hr : readInt (s.rest.dropWhile (isDelim s.delims)) with
  | none => simp [taken, hr]
  | some p =>
    have := taken_pos (s := s.rest.dropWhile (isDelim s.delims)) (by rw [hr]; rfl)
    have e : decide (taken (s.rest.dropWhile (isDelim s.delims)) = 0) = false := by simp; omega
    rw [e]
    have : ∃ neg n, some p = some (neg, n) := ⟨p.1, p.2, rfl⟩
    cases s.fail
    · simpa using this
    · simp

/-- **C110, violated.** After one failure every optional number is missing, although it is there and is taken from the text. -/
theorem C110_optional_violated (d b tail : Str) (hd : Delims d) (k : Kind) (v : Int) (hb : ∀ c ∈ b, c ∈ cstr d)
    (ht : ∀ c, tail.head? = some c → isDigitC c = false) :
    ∃ s, ({ make (b ++ (intToStr v ++ tail)) d with fail := true }).optNum k = .ok (none, s) ∧ s.rest = tail := by
  obtain ⟨s, h1, -, -, h4, h5⟩ := num_ok (s := { make (b ++ (intToStr v ++ tail)) d with fail := true }) ⟨Nat.zero_le _, by simp [make]⟩ k
  have hr : ({ make (b ++ (intToStr v ++ tail)) d with fail := true } : Stream).rest.dropWhile (isDelim d) = intToStr v ++ tail := skip_blanks hd hb v tail
  have hdl : ({ make (b ++ (intToStr v ++ tail)) d with fail := true } : Stream).delims = d := rfl
  rw [hdl, hr, taken_text v _ ht] at h5
  unfold Stream.optNum
  rw [h1]
  refine ⟨s, ?_, by rw [h5, List.drop_left]⟩
  simp only [Res.bind]
  rw [h4]
  simp

/-! ### Characters and lines -/

theorem drain_ok (n : Nat) : ∀ {s : Stream}, Sound s → s.fail = false → s.eof = false → s.rest.length < n →
    ∃ s', s.drain n = .ok (s.rest ++ [Char.ofNat 0], s') := by
  induction n with
  | zero => intro s _ _ _ h; omega
  | succ n ih =>
    intro s h hf he hn
    have hp := h.pos
    rw [Stream.drain, if_pos (by simp [Stream.good, hf, he])]
    have hl := rest_length s
    by_cases e : s.pos = s.text.length
    · have hr : s.rest = [] := List.eq_nil_of_length_eq_zero (by omega)
      have : s.getc = .ok (Char.ofNat 0, { s with eof := true }) := by unfold Stream.getc Stream.testEof; rw [if_pos e]; rfl
      rw [this]
      simp only [Res.bind]
      have hdr : Stream.drain { s with eof := true } n = .ok ([], { s with eof := true }) := by
        cases n with
        | zero => rfl
        | succ n => rw [Stream.drain, if_neg (by simp [Stream.good])]
      rw [hdr, hr]
      exact ⟨_, rfl⟩
    · have : s.getc = .ok (s.rest.headD (Char.ofNat 0), { s with pos := s.pos + 1 }) := by
        unfold Stream.getc Stream.testEof; rw [if_neg e]
        simp only [Bool.false_eq_true, if_false, Stream.cur, if_pos hp, Res.bind]
      rw [this]
      simp only [Res.bind]
      have hr : ({ s with pos := s.pos + 1 } : Stream).rest = s.rest.tail := by
        unfold Stream.rest
        simp only [List.tail_drop]
      obtain ⟨s', h1⟩ := ih (s := { s with pos := s.pos + 1 }) ⟨by simp only; omega, by simp [he]⟩ hf he (by
        rw [hr, List.length_tail]; omega)
      rw [h1, hr]
      refine ⟨s', ?_⟩
      simp only
      cases hh : s.rest with
      | nil => rw [hh] at hl; simp at hl; omega
      | cons c cs => rfl

/-- **C110, violated.** A loop that takes characters while the stream is good gets the whole text, and one zero more. -/
theorem C110_characters_violated (text d : Str) (n : Nat) (h : text.length < n) : ∃ s, (make text d).drain n = .ok (text ++ [Char.ofNat 0], s) := by
  have := drain_ok n (make_sound text d) rfl rfl (by simpa [make, Stream.rest] using h)
  simpa [make, Stream.rest] using this

/-- **C110.** The rest of a line: up to its end, which is not taken. -/
theorem C110_line (s : Stream) (h : Sound s) (hz : NoZero s.text) (line tail : Str) (hr : s.rest = line ++ tail)
    (hl : ∀ c ∈ line, c ≠ '\r' ∧ c ≠ '\n') (ht : ∀ c, tail.head? = some c → c = '\r' ∨ c = '\n') :
    ∃ s', s.getLine = .ok (line, s') ∧ s'.rest = tail ∧ s'.fail = s.fail := by
  have hzr : ∀ c ∈ s.rest, c ≠ Char.ofNat 0 := fun c hc => hz c (List.drop_subset _ _ hc)
  have hn : lineLen s.rest = line.length := by
    unfold lineLen
    rw [hr, List.takeWhile_append_of_pos]
    · cases tail with
      | nil => simp
      | cons c t =>
        rcases ht c rfl with rfl | rfl <;> simp
    · intro c hc
      have h1 := hl c hc
      have h2 := hzr c (by rw [hr]; simp [hc])
      simp [h1.1, h1.2, h2]
  unfold Stream.getLine Stream.testEof
  have hlen := rest_length s
  by_cases e : s.pos = s.text.length
  · rw [if_pos e]
    have : line ++ tail = [] := List.eq_nil_of_length_eq_zero (by rw [← hr]; omega)
    obtain ⟨rfl, rfl⟩ := List.append_eq_nil_iff.1 this
    exact ⟨_, rfl, by simpa [Stream.rest] using hr, rfl⟩
  · rw [if_neg e]
    simp only [Bool.false_eq_true, if_false, if_pos h.pos]
    refine ⟨if lineLen s.rest > 0 then s.endPos (lineLen s.rest) else s, ?_, ?_, ?_⟩
    · have : s.rest.take (lineLen s.rest) = line := by rw [hn, hr, List.take_left]
      rw [this]
    · rw [hn]
      split
      · next hp =>
        unfold Stream.endPos
        rw [if_neg (Nat.pos_iff_ne_zero.1 hp)]
        show s.text.drop (s.pos + line.length) = tail
        rw [← List.drop_drop]
        show s.rest.drop _ = _
        rw [hr, List.drop_left]
      · next hp =>
        have : line = [] := List.eq_nil_of_length_eq_zero (Nat.eq_zero_of_not_pos hp)
        subst this
        simpa using hr
    · split
      · unfold Stream.endPos
        split
        · next h1 h2 => exact absurd h1 (by rw [h2]; exact Nat.lt_irrefl 0)
        · rfl
      · rfl

/-- **C110, violated.** At the end of a line, `get_line` gives an empty line again and again, and the stream stays good. -/
theorem C110_line_violated (s : Stream) (c : Char) (t : Str) (hr : s.rest = c :: t) (hc : c = '\r' ∨ c = '\n') :
    s.getLine = .ok ([], s) := by
  have hlen := rest_length s
  rw [hr] at hlen
  simp only [List.length_cons] at hlen
  unfold Stream.getLine Stream.testEof
  have h1 : ¬ s.pos = s.text.length := by omega
  have h2 : s.pos ≤ s.text.length := by omega
  rw [if_neg h1]
  simp only [Bool.false_eq_true, if_false]
  rw [if_pos h2, hr]
  have : lineLen (c :: t) = 0 := by rcases hc with rfl | rfl <;> simp [lineLen]
  rw [this]
  rfl

/-! ### Searches -/

/-- **C110.** `try_get` takes the text if it comes next, and otherwise changes nothing. -/
theorem C110_try (s : Stream) (h : Sound s) (t : Str) (ht : NoZero t) :
    s.tryStr t = .ok (decide (t <+: s.rest), { s with pos := s.pos + if t <+: s.rest then t.length else 0 }) := by
  unfold Stream.tryStr
  rw [if_pos h.pos]
  by_cases e : t <+: s.rest
  · rw [if_pos ((eqN_iff ht _).2 e)]
    simp [e]
  · rw [if_neg (fun h => e ((eqN_iff ht _).1 h))]
    simp [e]

/-- **C110.** `seek` finds the first place where the text comes next, and fails if there is none. -/
theorem C110_seek_partial (s : Stream) (h : Sound s) (hg : s.good = true) (t : Str) (hz : NoZero s.text) (ht : NoZero t) :
    (∃ i, s.seek t = .ok (true, { s with pos := s.pos + i }) ∧ OccursAt t s.rest i ∧ ∀ j < i, ¬ OccursAt t s.rest j) ∨
      (s.seek t = .ok (false, { s with fail := true }) ∧ ∀ j, ¬ OccursAt t s.rest j) := by
  have hzr : NoZero s.rest := fun c hc => hz c (List.drop_subset _ _ hc)
  have hs := strFind_spec s.rest t 0 (Nat.zero_le _)
  unfold Stream.seek
  rw [if_pos hg, if_pos h.pos, cstr_id' hzr, cstr_id' ht]
  cases hf : strFind s.rest t 0 with
  | none =>
    rw [hf] at hs
    simp only [List.drop_zero] at hs
    exact .inr ⟨rfl, hs⟩
  | some i =>
    rw [hf] at hs
    simp only [List.drop_zero, Nat.sub_zero] at hs
    exact .inl ⟨i, rfl, hs.2.1, hs.2.2⟩

/-- **C110, violated.** Behind a zero in the text nothing is found. -/
theorem C110_seek_violated (t tail d : Str) (hne : t ≠ []) (ht : NoZero t) :
    ∃ s, (make (Char.ofNat 0 :: (t ++ tail)) d).seek t = .ok (false, s) := by
  cases t with
  | nil => exact absurd rfl hne
  | cons c t =>
    refine ⟨{ make (Char.ofNat 0 :: (c :: t ++ tail)) d with fail := true }, ?_⟩
    unfold Stream.seek
    have hg : (make (Char.ofNat 0 :: (c :: t ++ tail)) d).good = true := rfl
    have hp : (make (Char.ofNat 0 :: (c :: t ++ tail)) d).pos ≤ (make (Char.ofNat 0 :: (c :: t ++ tail)) d).text.length := Nat.zero_le _
    rw [if_pos hg, if_pos hp, cstr_id' ht]
    have : cstr (make (Char.ofNat 0 :: (c :: t ++ tail)) d).rest = [] := by simp [make, Stream.rest, cstr]
    rw [this]
    rfl

/-- Numbers with different blanks between them. -/
example : ∃ s, (make " 12\t-7\n\n300;".toList " \t\r\n".toList).nums .short 3 = .ok ([12, -7, 300], s) ∧ s.rest = ";".toList ∧ s.lineNumber = 3 :=
  ⟨⟨" 12\t-7\n\n300;".toList, 11, false, false, " \t\r\n".toList⟩, by decide +kernel, by decide +kernel, by decide +kernel⟩

end Xo.CharS
