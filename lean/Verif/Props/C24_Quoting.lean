import Verif.Model.StrTools
import Mathlib.Data.List.Basic

/-!
C24: quoting. Which characters survive is settled exactly: codes 1 to 127. NUL and all codes from 128 on do not.
-/
namespace Xo

/-- A C++ `char`. -/
def Spec.Byte (c : Char) : Prop := c.toNat < 256

open Spec

/-- What `quoted` writes for one character (string_tools.cpp:344-349). -/
def quotePiece (c : Char) : Str := if c = '"' ∨ c = '\\' ∨ schar c < 32 then encodeChar c else [c]

/-- What is read back for one character. -/
def readBack (c : Char) : Str :=
  if 1 ≤ c.toNat ∧ c.toNat ≤ 127 then [c]
  else if c.toNat = 0 then ['?'] else '?' :: (quotePiece c).drop 4

/-- Every character is written in one of three forms: as itself, as a two-character escape, or as an octal escape
followed by plain characters. Checked for each of the 256 characters. -/
def quoteForm (c : Char) : Bool :=
  match quotePiece c with
  | [x] => x = c && c ≠ '"' && c ≠ '\\' && readBack c = [c]
  | ['\\', e] => decodeChar ['\\', e] = .ok (c, 2) && (e = '\\' || e = '"' || e = 'r' || e = 'n' || e = 't') &&
      readBack c = [c]
  | '\\' :: d1 :: d2 :: d3 :: t =>
      decide ('0' ≤ d1 ∧ d1 < '8' ∧ '0' ≤ d2 ∧ d2 < '8' ∧ '0' ≤ d3 ∧ d3 < '8') &&
      t.all (fun x => x ≠ '"' && x ≠ '\\') &&
      (let v := ((d1.toNat - 48) * 8 + (d2.toNat - 48)) * 8 + (d3.toNat - 48)
       readBack c = (if v > 0 ∧ v < 32 then Char.ofNat v else '?') :: t)
  | _ => false

theorem quoteForm_all (c : Char) (h : Byte c) : quoteForm c = true := by
  have : ∀ n : Fin 256, quoteForm (Char.ofNat n.val) = true := by decide +kernel
  have h2 := this ⟨c.toNat, h⟩
  simpa using h2

theorem unquote_char {c : Char} (h1 : c ≠ '"') (h2 : c ≠ '\\') (rest : Str) :
    unquoteLoop (c :: rest) = (unquoteLoop rest).map (c :: ·) := by
  rw [unquoteLoop.eq_def]
  simp only [if_neg h1, if_neg h2]

theorem unquote_escape {d x : Char} {len : Nat} {rest : Str} (h : decodeChar ('\\' :: d :: rest) = .ok (x, len))
    (hl : len ≠ 0) :
    unquoteLoop ('\\' :: d :: rest) = (unquoteLoop (('\\' :: d :: rest).drop len)).map (x :: ·) := by
  rw [unquoteLoop.eq_def]
  simp only [h, dif_neg hl, if_neg (show ('\\' : Char) ≠ '"' by decide), if_true]

theorem decode_octal {d1 d2 d3 : Char} (rest : Str)
    (h : '0' ≤ d1 ∧ d1 < '8' ∧ '0' ≤ d2 ∧ d2 < '8' ∧ '0' ≤ d3 ∧ d3 < '8') :
    decodeChar ('\\' :: d1 :: d2 :: d3 :: rest) =
      let v := ((d1.toNat - 48) * 8 + (d2.toNat - 48)) * 8 + (d3.toNat - 48)
      .ok (if v > 0 ∧ v < 32 then Char.ofNat v else '?', 4) := by
  obtain ⟨a1, a2, b1, b2, c1, c2⟩ := h
  have no : ∀ x : Char, (x.toNat < 48 ∨ 56 ≤ x.toNat) → d1 ≠ x := by
    rintro x h3 rfl
    have e1 : (48 : Nat) ≤ d1.toNat := a1
    have e2 : d1.toNat < 56 := a2
    omega
  have hr : readOct 3 0 (d1 :: d2 :: d3 :: rest) =
      (((d1.toNat - 48) * 8 + (d2.toNat - 48)) * 8 + (d3.toNat - 48), 3) := by
    simp only [readOct, a1, a2, b1, b2, c1, c2, and_self, if_true, Nat.zero_mul, Nat.zero_add]
  unfold decodeChar
  simp only [ne_eq, not_true_eq_false, if_false, no (Char.ofNat 0) (by decide), no '\\' (by decide),
    no '"' (by decide), no 'r' (by decide), no 'n' (by decide), no 't' (by decide), hr]
  simp

theorem unquote_plain {t : Str} (ht : ∀ x ∈ t, x ≠ '"' ∧ x ≠ '\\') (rest : Str) :
    unquoteLoop (t ++ rest) = (unquoteLoop rest).map (t ++ ·) := by
  induction t with
  | nil =>
    simp only [List.nil_append]
    cases unquoteLoop rest <;> rfl
  | cons x t ih =>
    have hx := ht x (by simp)
    rw [List.cons_append, unquote_char hx.1 hx.2, ih (fun y hy => ht y (by simp [hy]))]
    cases unquoteLoop rest <;> rfl

/-- `try_unquoted` reads one written character and goes on behind it. -/
theorem unquote_piece (c : Char) (h : Byte c) (rest : Str) :
    unquoteLoop (quotePiece c ++ rest) = (unquoteLoop rest).map (readBack c ++ ·) := by
  have hf := quoteForm_all c h
  unfold quoteForm at hf
  split at hf
  · next x hx =>
    simp only [Bool.and_eq_true, decide_eq_true_eq] at hf
    obtain ⟨⟨⟨rfl, h1⟩, h2⟩, h3⟩ := hf
    rw [hx, h3]
    exact unquote_plain (t := [x]) (by simpa using ⟨h1, h2⟩) rest
  · next e he =>
    simp only [Bool.and_eq_true, decide_eq_true_eq, Bool.or_eq_true] at hf
    obtain ⟨⟨h1, h2⟩, h3⟩ := hf
    rw [he, h3]
    have hd : decodeChar ('\\' :: e :: rest) = .ok (c, 2) := by
      rw [← h1]
      rcases h2 with (((rfl | rfl) | rfl) | rfl) | rfl <;> simp [decodeChar]
    rw [List.cons_append, List.cons_append, List.nil_append, unquote_escape hd (by decide)]
    rfl
  · next d1 d2 d3 t he =>
    simp only [Bool.and_eq_true, decide_eq_true_eq, List.all_eq_true] at hf
    obtain ⟨⟨⟨a1, a2, b1, b2, c1, c2⟩, h2⟩, h3⟩ := hf
    rw [he, h3]
    simp only [List.cons_append]
    rw [unquote_escape (decode_octal (t ++ rest) ⟨a1, a2, b1, b2, c1, c2⟩) (by decide)]
    simp only [List.drop_succ_cons, List.drop_zero]
    rw [unquote_plain (t := t) ?_ rest]
    · cases unquoteLoop rest <;> rfl
    · intro x hx
      simpa using h2 x hx
  · cases hf

theorem quoted_eq (s : Str) : quoted s = '"' :: (s.flatMap quotePiece ++ ['"']) := rfl

/-- What is read back for a whole string, whatever its characters: there is no error and no undefined behaviour. -/
theorem tryUnquoted_quoted (s : Str) (h : ∀ c ∈ s, Byte c) : tryUnquoted (quoted s) = .ok (s.flatMap readBack) := by
  unfold tryUnquoted
  rw [quoted_eq, if_neg (by simp [List.getLast?_cons])]
  rw [List.tail_cons]
  induction s with
  | nil => simp [unquoteLoop]
  | cons c s ih =>
    rw [List.flatMap_cons, List.append_assoc, unquote_piece c (h c (by simp)), ih (fun x hx => h x (by simp [hx]))]
    rfl

/-- **C24.** Reading back the quoted form of `s` yields `s`, for every string over the codes 1 to 127; for every other
string it yields something else. -/
theorem C24_quoted_roundtrip_iff (s : Str) (h : ∀ c ∈ s, Byte c) :
    tryUnquoted (quoted s) = .ok s ↔ ∀ c ∈ s, 1 ≤ c.toNat ∧ c.toNat ≤ 127 := by
  rw [tryUnquoted_quoted s h]
  constructor
  · intro e
    have e : s.flatMap readBack = s := by simpa using e
    -- the first difference
    induction s with
    | nil => simp
    | cons c s ih =>
      have hc := h c (by simp)
      by_cases hg : 1 ≤ c.toNat ∧ c.toNat ≤ 127
      · have hr : readBack c = [c] := by simp [readBack, hg]
        rw [List.flatMap_cons, hr] at e
        intro x hx
        rcases List.mem_cons.1 hx with rfl | hx
        · exact hg
        · exact ih (fun y hy => h y (by simp [hy])) (by simpa using e) (by simpa using e) x hx
      · exfalso
        have hq : ∃ t, readBack c = '?' :: t := by
          unfold readBack
          rw [if_neg hg]
          split
          · exact ⟨[], rfl⟩
          · exact ⟨_, rfl⟩
        obtain ⟨t, ht⟩ := hq
        rw [List.flatMap_cons, ht, List.cons_append, List.cons.injEq] at e
        apply hg
        rw [← e.1]
        decide
  · intro hg
    congr 1
    clear h
    induction s with
    | nil => rfl
    | cons c s ih =>
      have hr : readBack c = [c] := by simp only [readBack, hg c (by simp), and_self, if_true]
      rw [List.flatMap_cons, hr, ih (fun x hx => hg x (by simp [hx]))]
      rfl

/-- **C24 (partial: codes 1 to 127).** -/
theorem C24_quoted_roundtrip_partial (s : Str) (h : ∀ c ∈ s, 1 ≤ c.toNat ∧ c.toNat ≤ 127) :
    tryUnquoted (quoted s) = .ok s :=
  (C24_quoted_roundtrip_iff s (fun c hc => by have := h c hc; unfold Byte; omega)).2 h

/-- **C24.** For a single character, `decode_char( encode_char( c ) )` is `c` exactly for the codes 1 to 127. -/
theorem C24_char_roundtrip_iff (c : Char) (h : Byte c) :
    (decodeChar (encodeChar c)).map Prod.fst = .ok c ↔ 1 ≤ c.toNat ∧ c.toNat ≤ 127 := by
  have : ∀ n : Fin 256, (decodeChar (encodeChar (Char.ofNat n.val))).map Prod.fst = .ok (Char.ofNat n.val) ↔
      1 ≤ (Char.ofNat n.val).toNat ∧ (Char.ofNat n.val).toNat ≤ 127 := by decide +kernel
  have h2 := this ⟨c.toNat, h⟩
  simpa using h2

/-- **C24.** An escape is decoded the same whatever follows it, and `len` is its length, for the codes 1 to 127 that are
written as an escape. -/
theorem C24_decode_in_context (c : Char) (rest : Str) (h : 1 ≤ c.toNat ∧ c.toNat ≤ 127) (he : encodeChar c ≠ [c]) :
    decodeChar (encodeChar c ++ rest) = .ok (c, (encodeChar c).length) := by
  have hb : Byte c := by unfold Byte; omega
  have key : ∀ n : Fin 256, let c := Char.ofNat n.val
      (1 ≤ c.toNat ∧ c.toNat ≤ 127) → encodeChar c ≠ [c] → quotePiece c = encodeChar c := by decide +kernel
  have hqe : quotePiece c = encodeChar c := by
    have := key ⟨c.toNat, hb⟩
    simp only [Char.ofNat_toNat] at this
    exact this h he
  have hr : readBack c = [c] := by simp [readBack, h]
  have hf := quoteForm_all c hb
  unfold quoteForm at hf
  rw [hqe, hr] at hf
  split at hf
  · next x hx =>
    simp only [Bool.and_eq_true, decide_eq_true_eq] at hf
    obtain ⟨⟨⟨rfl, _⟩, _⟩, _⟩ := hf
    exact absurd hx he
  · next e hx =>
    simp only [Bool.and_eq_true, decide_eq_true_eq, Bool.or_eq_true] at hf
    obtain ⟨⟨h1, h2⟩, _⟩ := hf
    rw [hx]
    rw [← show (2 : Nat) = [('\\' : Char), e].length from rfl, ← h1]
    rcases h2 with (((rfl | rfl) | rfl) | rfl) | rfl <;> simp [decodeChar]
  · next d1 d2 d3 t hx =>
    simp only [Bool.and_eq_true, decide_eq_true_eq, List.all_eq_true, List.cons.injEq] at hf
    obtain ⟨⟨⟨a1, a2, b1, b2, c1, c2⟩, _⟩, h3, rfl⟩ := hf
    rw [hx]
    simp only [List.cons_append]
    rw [decode_octal _ ⟨a1, a2, b1, b2, c1, c2⟩]
    simp only [← h3]
    simp
  · cases hf

/-- **C24.** `try_quoted` either leaves the string as it is, and then it has no blank, control character, quote or
special character and is not empty; or it gives the quoted form. -/
theorem C24_try_quoted (special s : Str) :
    (tryQuoted special s = s ∧ s ≠ [] ∧ ∀ c ∈ s, ¬ schar c < 33 ∧ c ≠ '"' ∧ c ∉ special) ∨
    tryQuoted special s = quoted s := by
  unfold tryQuoted
  by_cases h : needsQuotes special s = true
  · right; rw [if_pos h]
  · left
    rw [if_neg h]
    refine ⟨rfl, ?_, ?_⟩
    · rintro rfl; simp [needsQuotes] at h
    · intro c hc
      refine ⟨?_, ?_, ?_⟩ <;> intro hx <;> apply h <;> unfold needsQuotes <;> rw [Bool.or_eq_true] <;> left <;>
        rw [List.any_eq_true] <;> refine ⟨c, hc, ?_⟩ <;> simp [hx]

/-- **C24 is violated** for NUL and for every non-ASCII character. -/
theorem C24_non_ascii_violated :
    tryUnquoted (quoted [Char.ofNat 0]) = .ok ['?'] ∧
    tryUnquoted (quoted [Char.ofNat 233]) = .ok "?77777751".toList := by decide +kernel

/-- Reading a text that consists of a single quote, or ends inside an escape, is undefined behaviour. -/
theorem C24_unquote_undefined : tryUnquoted ['"'] = .ub ∧ tryUnquoted ['"', '\\', '"'] = .ub := by decide +kernel

/-- A string with quotes, backslashes, control characters and digits after an octal escape. -/
example : (∀ c ∈ ['"', '\\', '\n', Char.ofNat 1, '2', 'x', Char.ofNat 127], 1 ≤ c.toNat ∧ c.toNat ≤ 127) ∧
    quoted [Char.ofNat 1, '2', '"'] = "\"\\0012\\\"\"".toList := by decide +kernel

end Xo
