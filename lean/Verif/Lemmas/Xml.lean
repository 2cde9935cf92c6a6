import Verif.Model.Xml
import Verif.Spec.Xml
import Mathlib.Tactic.Common
import Mathlib.Tactic.NormNum
import Mathlib.Data.List.Infix

/-! Lemmas about the XML reader: it reads what is written in the parts of `Xo.Xml.Spec`. -/
namespace Xo.Xml
open Spec

theorem isWs_iff (c : Char) : isWs c = true ↔ c = ' ' ∨ c = '\t' ∨ c = '\n' ∨ c = '\r' := by
  simp [isWs, or_assoc]

theorem zero_iff (c : Char) : c = Char.ofNat 0 ↔ c.toNat = 0 := by
  constructor
  · rintro rfl; rfl
  · intro h
    apply Char.ext; apply UInt32.toNat_inj.1; simpa using h

theorem dropWs_blank {w : Str} (h : Blank w) (s : Str) : (w ++ s).dropWhile isWs = s.dropWhile isWs := by
  induction w with
  | nil => rfl
  | cons c w ih =>
    have : isWs c = true := (isWs_iff c).2 (h c (by simp))
    simp only [List.cons_append, List.dropWhile_cons, this, if_true]
    exact ih fun d hd => h d (by simp [hd])

theorem dropWs_cons {c : Char} (h : isWs c = false) (s : Str) : (c :: s).dropWhile isWs = c :: s := by
  simp [h]

theorem dropWs_len (s : Str) : (s.dropWhile isWs).length ≤ s.length := (List.dropWhile_suffix _).length_le

/-! ### Searching a mark -/

theorem upTo_mark (m s r : Str) (hm : '>' ∉ m) (hs : ¬ (m ++ ['>']) <:+: s) :
    upTo (m ++ ['>']) (s ++ (m ++ ['>']) ++ r) = some (s, r) := by
  induction s with
  | nil =>
    obtain ⟨c, t, h⟩ : ∃ c t, m ++ ['>'] = c :: t := by cases m <;> simp
    have hp : (m ++ ['>']).isPrefixOf ((m ++ ['>']) ++ r) = true := by
      rw [List.isPrefixOf_iff_prefix]; exact ⟨r, rfl⟩
    have hd : ((m ++ ['>']) ++ r).drop (m ++ ['>']).length = r := by rw [List.drop_left]
    rw [List.nil_append]
    generalize m ++ ['>'] = k at *
    subst h
    rw [List.cons_append] at *
    simp [upTo, hp]
  | cons c s ih =>
    have hs' : ¬ (m ++ ['>']) <:+: s := fun ⟨a, b, h⟩ => hs ⟨c :: a, b, by simp [← h]⟩
    have hp : ¬ (m ++ ['>']) <+: (c :: (s ++ (m ++ ['>']) ++ r)) := by
      intro hp
      by_cases hl : (m ++ ['>']).length ≤ (c :: s).length
      · have : (m ++ ['>']) <+: (c :: s) := by
          refine List.prefix_of_prefix_length_le hp ⟨(m ++ ['>']) ++ r, by simp⟩ hl
        exact hs this.isInfix
      · have hi := hp.getElem (i := m.length) (by simp)
        have h1 : (m ++ ['>'])[m.length]'(by simp) = '>' := by simp
        rw [h1] at hi
        simp only [List.length_append, List.length_cons, List.length_nil] at hl
        have h2 : (c :: (s ++ (m ++ ['>']) ++ r))[m.length]'(by simp; omega) = m[m.length - (s.length + 1)]'(by omega) := by
          rw [List.getElem_cons, dif_neg (by omega)]
          rw [List.getElem_append_left (by simp; omega), List.getElem_append_right (by omega),
            List.getElem_append_left (by omega)]
          congr 1; omega
        rw [h2] at hi
        exact hm (hi ▸ List.getElem_mem _)
    have hb : (m ++ ['>']).isPrefixOf (c :: (s ++ (m ++ ['>']) ++ r)) = false := by
      rw [Bool.eq_false_iff]; intro h; exact hp (List.isPrefixOf_iff_prefix.1 h)
    rw [List.cons_append, List.cons_append, upTo, hb, ih hs']
    rfl

theorem docType_paired {a : Str} (h : Item.Paired a) : ∀ d r, docType (d + 1) (a ++ r) = docType (d + 1) r := by
  induction h with
  | nil => intro d r; rfl
  | chr h1 h2 _ ih => intro d r; rw [List.cons_append, docType, if_neg h1, if_neg h2, ih]
  | @group a s _ _ iha ihs =>
    intro d r
    rw [show '[' :: a ++ ']' :: s ++ r = '[' :: (a ++ (']' :: (s ++ r))) by simp, docType, if_pos rfl, iha, docType, if_neg (by decide), if_pos rfl, ihs]

theorem docType_text {s : Str} (h : Item.DocText s) (r : Str) : docType 0 (s ++ '>' :: r) = some r := by
  induction h with
  | nil => simp [docType]
  | chr h1 h2 _ ih => rw [List.cons_append, docType, if_neg h2, if_neg h1, ih]
  | @group a s ha _ ih =>
    rw [show '[' :: a ++ ']' :: s ++ '>' :: r = '[' :: (a ++ (']' :: (s ++ '>' :: r))) by simp, docType, if_neg (by decide), if_pos rfl,
      docType_paired ha, docType, if_neg (by decide), if_pos rfl, ih]

/-! ### References by number -/

theorem digit_digitChar (d : Nat) (h : d < 16) : digit (Nat.digitChar d) = some d := by
  revert d; decide

theorem readDigits_append (b : Nat) (hb : 2 ≤ b) (hb' : b ≤ 16) (n : Nat) (hn : n < 2 ^ 64) (c : Char) (hc : digit c = none)
    (r : Str) : readDigits b 0 (Nat.toDigits b n ++ c :: r) = (n, c :: r) := by
  have key : ∀ n, n < 2 ^ 64 → ∀ t, readDigits b 0 (Nat.toDigits b n ++ t) = readDigits b n t := by
    intro n
    induction n using Nat.strong_induction_on with
    | _ n ih =>
      intro hn t
      by_cases h : n < b
      · rw [Nat.toDigits_of_lt_base h]
        simp only [List.cons_append, List.nil_append, readDigits, digit_digitChar n (by omega)]
        rw [Nat.zero_mul, Nat.zero_add, Nat.mod_eq_of_lt hn]
      · have hq : n / b < n := Nat.div_lt_self (by omega) (by omega)
        have hq0 : 0 < n / b := Nat.div_pos (by omega) (by omega)
        have hm : n % b < b := Nat.mod_lt _ (by omega)
        have e : b * (n / b) + n % b = n := Nat.div_add_mod n b
        have ha := Nat.toDigits_append_toDigits (b := b) (n := n / b) (d := n % b) (by omega) hq0 hm
        rw [e] at ha
        rw [← ha, List.append_assoc, ih _ hq (by omega), Nat.toDigits_of_lt_base hm]
        simp only [List.cons_append, List.nil_append, readDigits, digit_digitChar (n % b) (by omega)]
        rw [Nat.mul_comm, e, Nat.mod_eq_of_lt hn]
  rw [key n hn]
  simp [readDigits, hc]

theorem insertCoded_utf8 (c : Char) : insertCoded c.toNat = some (utf8 c) := by
  have h : c.toNat < 0x110000 := by
    have := c.valid
    rcases this with h | h
    · have : c.toNat < 0xd800 := h
      omega
    · exact h.2
  have e : c.val.toNat = c.toNat := rfl
  unfold insertCoded utf8 String.utf8EncodeChar contByte
  simp only [e]
  generalize c.toNat = n at *
  split_ifs <;> first | omega | simp only [List.map_cons, List.map_nil, UInt8.toNat_ofNat', Option.some.injEq, List.cons.injEq, and_true]
  all_goals
    first
    | (congr 1; omega)
    | (refine ⟨?_, ?_⟩ <;> congr 1 <;> omega)
    | (refine ⟨?_, ?_, ?_⟩ <;> congr 1 <;> omega)
    | (refine ⟨?_, ?_, ?_, ?_⟩ <;> congr 1 <;> omega)

theorem utf8_ne_nil (c : Char) : utf8 c ≠ [] := by
  unfold utf8
  simp [String.utf8EncodeChar_ne_nil]

theorem ofNat_toNat_small (n : Nat) (h : n < 256) : (Char.ofNat n).toNat = n := by
  revert n; decide +kernel

theorem utf8_nonzero (c : Char) (h : c.toNat ≠ 0) : ∀ d ∈ utf8 c, d.toNat ≠ 0 := by
  intro d hd
  have hi := insertCoded_utf8 c
  have hb : c.toNat < 0x110000 := by
    by_contra hn
    unfold insertCoded at hi
    split_ifs at hi <;> omega
  unfold insertCoded contByte at hi
  split_ifs at hi
  all_goals
    simp only [Option.some.injEq] at hi
    rw [← hi] at hd
    simp only [List.mem_cons, List.not_mem_nil, or_false] at hd
    rcases hd with rfl | hd
    · rw [ofNat_toNat_small _ (by omega)]; omega
    try
      rcases hd with rfl | hd
      · rw [ofNat_toNat_small _ (by omega)]; omega
    try
      rcases hd with rfl | hd
      · rw [ofNat_toNat_small _ (by omega)]; omega
    try
      subst hd
      rw [ofNat_toNat_small _ (by omega)]; omega

/-! ### Text -/

theorem readDigits_len (b : Nat) : ∀ (s : Str) (n : Nat), (readDigits b n s).2.length ≤ s.length := by
  intro s
  induction s with
  | nil => intro n; simp [readDigits]
  | cons c r ih =>
    intro n
    rw [readDigits]
    split
    · exact Nat.le_succ_of_le (ih _)
    · exact le_refl _

theorem numeric_dec (c : Char) (r : Str) : numeric (Nat.toDigits 10 c.toNat ++ ';' :: r) = .repl (utf8 c) r := by
  have hn : c.toNat < 2 ^ 64 := lt_of_lt_of_le c.val.toNat_lt (by norm_num)
  have hd := readDigits_append 10 (by omega) (by omega) c.toNat hn ';' (by decide) r
  have hx : ∀ x ∈ Nat.toDigits 10 c.toNat, x ≠ 'x' := by
    intro x hx hc
    have := Nat.isDigit_of_mem_toDigits (by omega) (by omega) hx
    rw [hc] at this; exact absurd this (by decide)
  have : numCode (Nat.toDigits 10 c.toNat ++ ';' :: r) = (c.toNat, ';' :: r) := by
    rw [← hd]
    unfold numCode
    split
    · rename_i t h
      exfalso
      cases hl : Nat.toDigits 10 c.toNat with
      | nil => exact Nat.toDigits_ne_nil hl
      | cons a l =>
        rw [hl] at h hx
        simp only [List.cons_append, List.cons.injEq] at h
        exact hx a (by simp) h.1
    · rfl
  unfold numeric
  simp only [this, insertCoded_utf8]

theorem numeric_hex (c : Char) (r : Str) : numeric ('x' :: (Nat.toDigits 16 c.toNat ++ ';' :: r)) = .repl (utf8 c) r := by
  have hn : c.toNat < 2 ^ 64 := lt_of_lt_of_le c.val.toNat_lt (by norm_num)
  have hd := readDigits_append 16 (by omega) (by omega) c.toNat hn ';' (by decide) r
  unfold numeric
  simp only [numCode, hd, insertCoded_utf8]

theorem mem_toDigits (b n : Nat) (hb : 2 ≤ b) : ∀ c ∈ Nat.toDigits b n, ∃ d < b, c = Nat.digitChar d := by
  induction n using Nat.strong_induction_on with
  | _ n ih =>
    by_cases h : n < b
    · rw [Nat.toDigits_of_lt_base h]
      intro c hc
      exact ⟨n, h, List.mem_singleton.1 hc⟩
    · rw [Nat.toDigits_of_base_le (by omega) (by omega)]
      intro c hc
      rcases List.mem_append.1 hc with hc | hc
      · exact ih _ (Nat.div_lt_self (by omega) (by omega)) c hc
      · exact ⟨_, Nat.mod_lt _ (by omega), List.mem_singleton.1 hc⟩

theorem readDigits_upper (s t : Str) (hs : ∀ c ∈ s, ∃ d < 16, c = Nat.digitChar d) :
    ∀ n, readDigits 16 n (s.map Char.toUpper ++ t) = readDigits 16 n (s ++ t) := by
  have hu : ∀ d < 16, digit (Nat.digitChar d).toUpper = some d := by decide
  induction s with
  | nil => intro n; rfl
  | cons c s ih =>
    intro n
    obtain ⟨d, hd, rfl⟩ := hs c (by simp)
    simp only [List.map_cons, List.cons_append, readDigits, hu d hd, digit_digitChar d hd]
    exact ih (fun c hc => hs c (List.mem_cons_of_mem _ hc)) _

theorem numeric_hexUp (c : Char) (r : Str) : numeric ('x' :: ((Nat.toDigits 16 c.toNat).map Char.toUpper ++ ';' :: r)) = .repl (utf8 c) r := by
  have hn : c.toNat < 2 ^ 64 := lt_of_lt_of_le c.val.toNat_lt (by norm_num)
  have hd := readDigits_append 16 (by omega) (by omega) c.toNat hn ';' (by decide) r
  rw [← readDigits_upper _ _ (mem_toDigits 16 _ (by omega))] at hd
  unfold numeric
  simp only [numCode, hd, insertCoded_utf8]

theorem renderText_cons (p : Piece) (ps : List Piece) : renderText (p :: ps) = p.render ++ renderText ps := rfl
theorem textOf_cons (p : Piece) (ps : List Piece) : textOf (p :: ps) = p.meaning ++ textOf ps := rfl

/-- What stands behind the ampersand of a reference. -/
theorem entity_piece (p : Piece) (hp : ∀ c, p ≠ .chr c) :
    ∃ t, p.render = '&' :: t ∧ ∀ r, entity (t ++ r) = .repl p.meaning r := by
  cases p with
  | chr c => exact absurd rfl (hp c)
  | amp => exact ⟨"amp;".toList, rfl, fun r => rfl⟩
  | lt => exact ⟨"lt;".toList, rfl, fun r => rfl⟩
  | gt => exact ⟨"gt;".toList, rfl, fun r => rfl⟩
  | quot => exact ⟨"quot;".toList, rfl, fun r => rfl⟩
  | apos => exact ⟨"apos;".toList, rfl, fun r => rfl⟩
  | dec c =>
    refine ⟨'#' :: (Nat.toDigits 10 c.toNat ++ [';']), rfl, fun r => ?_⟩
    have := numeric_dec c r
    simp only [List.cons_append, List.append_assoc, List.nil_append]
    exact this
  | hex c =>
    refine ⟨'#' :: 'x' :: (Nat.toDigits 16 c.toNat ++ [';']), rfl, fun r => ?_⟩
    have := numeric_hex c r
    simp only [List.cons_append, List.append_assoc, List.nil_append]
    exact this
  | hexUp c =>
    refine ⟨'#' :: 'x' :: ((Nat.toDigits 16 c.toNat).map Char.toUpper ++ [';']), rfl, fun r => ?_⟩
    have := numeric_hexUp c r
    simp only [List.cons_append, List.append_assoc, List.nil_append]
    exact this

theorem expand_text (stop : Char) (hs : stop ≠ '&') (ps : List Piece) (h : ∀ p ∈ ps, p.Ok stop) (rest : Str)
    (hr : rest = [] ∨ rest.head? = some stop) :
    ∀ n, (renderText ps ++ rest).length < n → expand (· ≠ stop) n (renderText ps ++ rest) = .ok (textOf ps, rest) := by
  induction ps with
  | nil =>
    intro n hn
    obtain ⟨n, rfl⟩ : ∃ m, n = m + 1 := ⟨n - 1, by omega⟩
    show expand _ (n + 1) rest = _
    cases rest with
    | nil => rfl
    | cons c r =>
      simp at hr
      simp [expand, hr, textOf]
  | cons p ps ih =>
    intro n hn
    obtain ⟨n, rfl⟩ : ∃ m, n = m + 1 := ⟨n - 1, by omega⟩
    have ih := ih fun q hq => h q (by simp [hq])
    have hp := h p (by simp)
    rw [renderText_cons, List.append_assoc] at hn ⊢
    rw [textOf_cons]
    by_cases hc : ∃ c, p = .chr c
    · obtain ⟨c, rfl⟩ := hc
      have h1 : c ≠ stop := hp.1
      have h2 : c ≠ '&' := hp.2.1
      have hl : (renderText ps ++ rest).length < n := by
        simp only [Piece.render, List.cons_append, List.nil_append, List.length_cons] at hn ⊢; omega
      show expand _ (n + 1) (c :: (renderText ps ++ rest)) = _
      rw [expand, if_pos (by simpa using h1), if_neg h2, ih n hl]
      rfl
    · obtain ⟨t, e, he⟩ := entity_piece p (fun c hc' => hc ⟨c, hc'⟩)
      have hl : (renderText ps ++ rest).length < n := by
        rw [e] at hn
        simp only [List.cons_append, List.length_cons, List.length_append] at hn ⊢; omega
      rw [e, List.cons_append, expand, if_pos (by simpa using Ne.symm hs), if_pos rfl, he]
      show (expand _ n (renderText ps ++ rest) >>= _) = _
      rw [ih n hl]
      rfl

theorem textOf_nonzero {stop : Char} {ps : List Piece} (h : ∀ p ∈ ps, p.Ok stop) : ∀ c ∈ textOf ps, c.toNat ≠ 0 := by
  intro c hc
  obtain ⟨p, hp, hc⟩ := List.mem_flatMap.1 hc
  have := h p hp
  cases p with
  | chr d => simp only [Piece.meaning, List.mem_singleton] at hc; exact hc ▸ this.2.2
  | dec d => exact utf8_nonzero d this c hc
  | hex d => exact utf8_nonzero d this c hc
  | hexUp d => exact utf8_nonzero d this c hc
  | _ => simp only [Piece.meaning, List.mem_singleton] at hc; subst hc; decide

theorem toDigits_nonzero (b n : Nat) (hb : 2 ≤ b) (hb' : b ≤ 16) : ∀ c ∈ Nat.toDigits b n, c.toNat ≠ 0 := by
  induction n using Nat.strong_induction_on with
  | _ n ih =>
    have hd : ∀ d < 16, (Nat.digitChar d).toNat ≠ 0 := by decide
    by_cases h : n < b
    · rw [Nat.toDigits_of_lt_base h]
      intro c hc
      rw [List.mem_singleton] at hc
      exact hc ▸ hd n (by omega)
    · rw [Nat.toDigits_of_base_le (by omega) (by omega)]
      intro c hc
      rcases List.mem_append.1 hc with hc | hc
      · exact ih _ (Nat.div_lt_self (by omega) (by omega)) c hc
      · rw [List.mem_singleton] at hc
        exact hc ▸ hd _ (lt_of_lt_of_le (Nat.mod_lt _ (by omega)) hb')

theorem renderText_nonzero {stop : Char} {ps : List Piece} (h : ∀ p ∈ ps, p.Ok stop) :
    ∀ c ∈ renderText ps, c.toNat ≠ 0 := by
  have hd10 := fun n => toDigits_nonzero 10 n (by omega) (by omega)
  have hd16 := fun n => toDigits_nonzero 16 n (by omega) (by omega)
  intro c hc
  obtain ⟨p, hp, hc⟩ := List.mem_flatMap.1 hc
  have := h p hp
  cases p with
  | chr d => simp only [Piece.render, List.mem_singleton] at hc; exact hc ▸ this.2.2
  | dec d =>
    simp [Piece.render] at hc
    rcases hc with rfl | rfl | hc | rfl
    · decide
    · decide
    · exact hd10 _ c hc
    · decide
  | hex d =>
    simp [Piece.render] at hc
    rcases hc with rfl | rfl | rfl | hc | rfl
    · decide
    · decide
    · decide
    · exact hd16 _ c hc
    · decide
  | hexUp d =>
    simp [Piece.render] at hc
    rcases hc with rfl | rfl | rfl | ⟨x, hx, rfl⟩ | rfl
    · decide
    · decide
    · decide
    · obtain ⟨k, hk, rfl⟩ := mem_toDigits 16 _ (by omega) x hx
      have : ∀ k < 16, (Nat.digitChar k).toUpper.toNat ≠ 0 := by decide
      exact this k hk
    · decide
  | _ =>
    simp [Piece.render] at hc
    rcases hc with rfl | rfl | rfl | rfl | hc <;> first | decide | skip
    all_goals (first | (subst hc; decide) | (rcases hc with rfl | rfl <;> decide))

theorem cstr_id {s : Str} (h : ∀ c ∈ s, c.toNat ≠ 0) : cstr s = s := by
  induction s with
  | nil => rfl
  | cons c s ih =>
    have hc : c ≠ Char.ofNat 0 := fun e => h c (by simp) ((zero_iff c).1 e)
    unfold cstr at ih ⊢
    rw [List.takeWhile_cons, if_pos (by simpa using hc), ih fun d hd => h d (by simp [hd])]

/-! ### Attributes -/

theorem takeDrop_name {p : Char → Bool} {n : Str} (h : ∀ c ∈ n, p c = true) {r : Str} (hr : ∀ c, r.head? = some c → p c = false) :
    (n ++ r).takeWhile p = n ∧ (n ++ r).dropWhile p = r := by
  induction n with
  | nil =>
    cases r with
    | nil => simp
    | cons c r => simp [hr c rfl]
  | cons c n ih =>
    obtain ⟨h1, h2⟩ := ih fun d hd => h d (by simp [hd])
    simp only [List.cons_append, List.takeWhile_cons, List.dropWhile_cons, h c (by simp), if_true, h1, h2, and_self]

theorem attrName_of {c : Char} (h : Attr.NameChar c) : isAttrName c = true := by
  obtain ⟨h1, h2⟩ := h
  have : c ≠ Char.ofNat 0 := fun e => h2 ((zero_iff c).1 e)
  simp only [List.mem_cons, List.not_mem_nil, or_false, not_or] at h1
  simp [isAttrName, isWs, h1, this]

theorem name_of {c : Char} (h : Item.NameChar c) : isName c = true := by
  obtain ⟨h1, h2⟩ := h
  have : c ≠ Char.ofNat 0 := fun e => h2 ((zero_iff c).1 e)
  simp only [List.mem_cons, List.not_mem_nil, or_false, not_or] at h1
  simp [isName, isWs, h1, this]

theorem attrName_not_ws {c : Char} (h : isAttrName c = true) : isWs c = false := by
  cases hw : isWs c <;> simp_all [isAttrName]

theorem head_ws_append {w : Str} (h : Blank w) {r : Str} {p : Char → Bool} (hp : ∀ c, isWs c = true → p c = false)
    (hr : ∀ c, r.head? = some c → p c = false) : ∀ c, (w ++ r).head? = some c → p c = false := by
  intro c hc
  cases w with
  | nil => exact hr c hc
  | cons d w =>
    simp only [List.cons_append, List.head?_cons, Option.some.injEq] at hc
    exact hc ▸ hp d ((isWs_iff d).2 (h d (by simp)))

theorem parseAttr_render {a : Attr} (h : a.Ok) (rest : Str) :
    parseAttr (a.name ++ a.left ++ '=' :: a.right ++ a.quote :: renderText a.value ++ [a.quote] ++ rest) =
      .ok ((a.name, textOf a.value), rest.dropWhile isWs) := by
  have e : a.name ++ a.left ++ '=' :: a.right ++ a.quote :: renderText a.value ++ [a.quote] ++ rest =
      a.name ++ (a.left ++ '=' :: (a.right ++ a.quote :: (renderText a.value ++ a.quote :: rest))) := by simp
  have hq : isWs a.quote = false ∧ a.quote ≠ '&' := by
    rcases h.quote with e | e <;> rw [e] <;> decide
  obtain ⟨h1, h2⟩ := takeDrop_name (p := isAttrName) (n := a.name) (fun c hc => attrName_of (h.name.1 c hc))
    (r := a.left ++ '=' :: (a.right ++ a.quote :: (renderText a.value ++ a.quote :: rest)))
    (head_ws_append h.left (fun c hc => by
        by_contra hn
        rw [attrName_not_ws (by simpa using hn)] at hc; cases hc)
      (by intro c hc; simp at hc; subst hc; decide))
  have hx := expand_text a.quote hq.2 a.value h.value (a.quote :: rest) (Or.inr rfl) _ (Nat.lt_succ_self _)
  rw [e]
  unfold parseAttr
  rw [h1, h2, dropWs_blank h.left, dropWs_cons (by decide)]
  simp only []
  rw [dropWs_blank h.right, dropWs_cons hq.1]
  simp only []
  rw [if_pos h.quote, hx]
  rfl

theorem attrs_len (as : List Attr) : as.length ≤ (as.flatMap Attr.render).length := by
  induction as with
  | nil => simp
  | cons a as ih => simp only [List.flatMap_cons, List.length_append, List.length_cons, Attr.render]; omega

theorem parseAttrs_render (as : List Attr) (h : ∀ a ∈ as, a.Ok) (w : Str) (hw : Blank w) (c : Char)
    (hc : isAttrName c = false) (hc' : isWs c = false) (rest : Str) :
    ∀ n, as.length < n → parseAttrs n ((as.flatMap Attr.render ++ w ++ c :: rest).dropWhile isWs) =
      .ok (as.map fun a => (a.name, textOf a.value), c :: rest) := by
  induction as with
  | nil =>
    intro n hn
    obtain ⟨n, rfl⟩ : ∃ m, n = m + 1 := ⟨n - 1, by simp at hn; omega⟩
    rw [List.flatMap_nil, List.nil_append, dropWs_blank hw, dropWs_cons hc', parseAttrs, hc]
    rfl
  | cons a as ih =>
    intro n hn
    obtain ⟨n, rfl⟩ : ∃ m, n = m + 1 := ⟨n - 1, by simp at hn; omega⟩
    have ha := h a (by simp)
    have hp := parseAttr_render ha (as.flatMap Attr.render ++ w ++ c :: rest)
    have e : (a :: as).flatMap Attr.render ++ w ++ c :: rest = a.before ++ (a.name ++ a.left ++ '=' :: a.right ++ a.quote :: renderText a.value ++ [a.quote] ++ (as.flatMap Attr.render ++ w ++ c :: rest)) := by
      simp [Attr.render]
    rw [e, dropWs_blank ha.before.1]
    obtain ⟨d, t, hd⟩ : ∃ d t, a.name = d :: t := by
      cases hn : a.name with
      | nil => exact absurd hn ha.name.2
      | cons d t => exact ⟨d, t, rfl⟩
    have hda : isAttrName d = true := attrName_of (ha.name.1 d (by simp [hd]))
    obtain ⟨t', ht'⟩ : ∃ t', a.name ++ a.left ++ '=' :: a.right ++ a.quote :: renderText a.value ++ [a.quote] ++ (as.flatMap Attr.render ++ w ++ c :: rest) = d :: t' := ⟨_, by rw [hd]; rfl⟩
    rw [ht'] at hp ⊢
    rw [dropWs_cons (attrName_not_ws hda), parseAttrs, hda, if_pos rfl, hp]
    simp only [Out.bind_ok]
    rw [ih (fun b hb => h b (by simp [hb])) n (by simp at hn; omega)]
    rfl

/-! ### Elements and contents -/

mutual
/-- The node that is read for an item. -/
def dom : Item → Option XNode
  | .text ps => if ∀ p ∈ ps, p.IsBlank then none else some (.data (textOf ps))
  | .single n as _ => some (.elem n (as.map fun a => (a.name, textOf a.value)) [] [])
  | .pair n as _ is _ => some (.elem n (as.map fun a => (a.name, textOf a.value)) (Item.firstText is) (domAll is))
  | .cdata s => some (.cdata s)
  | _ => none
def domAll : List Item → List XNode
  | [] => []
  | i :: is => (dom i).toList ++ domAll is
end

/-- The value of an element whose value is `v` so far. -/
def pick (v : Str) (is : List Item) : Str := if v = [] then Item.firstText is else v

theorem render_tag (i : Item) (h : i.isText = false) (hok : i.Ok) :
    ∃ c t, i.render = '<' :: c :: t ∧ c ≠ '/' := by
  cases i with
  | text ps => cases h
  | single n as w =>
    unfold Item.Ok at hok
    obtain ⟨hn, -⟩ := hok
    cases n with
    | nil => exact absurd rfl hn.start.1
    | cons c n =>
      refine ⟨c, _, rfl, ?_⟩
      rintro rfl
      have := hn.chars '/' (by simp)
      exact absurd this (by decide)
  | pair n as w is w' =>
    unfold Item.Ok at hok
    obtain ⟨hn, -⟩ := hok
    cases n with
    | nil => exact absurd rfl hn.start.1
    | cons c n =>
      refine ⟨c, n ++ as.flatMap Attr.render ++ w ++ '>' :: Item.renderAll is ++ '<' :: '/' :: (c :: n) ++ w' ++ ['>'],
        by rw [Item.render]; simp, ?_⟩
      rintro rfl
      have := hn.chars '/' (by simp)
      exact absurd this (by decide)
  | comment s => exact ⟨'!', _, rfl, by decide⟩
  | instr s => exact ⟨'?', _, rfl, by decide⟩
  | cdata s => exact ⟨'!', _, rfl, by decide⟩
  | docType s => exact ⟨'!', _, rfl, by decide⟩

theorem dropWs_text {ps : List Piece} (h : ∀ p ∈ ps, p.IsBlank) (r : Str) :
    (renderText ps ++ r).dropWhile isWs = r.dropWhile isWs := by
  refine dropWs_blank ?_ r
  intro c hc
  obtain ⟨p, hp, hc⟩ := List.mem_flatMap.1 hc
  have := h p hp
  cases p with
  | chr d => simp only [Piece.render, List.mem_singleton] at hc; subst hc; exact this
  | amp | lt | gt | quot | apos | dec d | hex d | hexUp d => exact this.elim

theorem dropWs_nonblank {ps : List Piece} (hok : ∀ p ∈ ps, p.Ok '<') (h : ¬ ∀ p ∈ ps, p.IsBlank) (r : Str) :
    ∃ c t, (renderText ps ++ r).dropWhile isWs = c :: t ∧ c ≠ '<' := by
  induction ps with
  | nil => exact absurd (by simp) h
  | cons p ps ih =>
    have hp := hok p (by simp)
    rw [renderText_cons, List.append_assoc]
    by_cases hc : ∃ c, p = .chr c
    · obtain ⟨c, rfl⟩ := hc
      by_cases hb : isWs c = true
      · obtain ⟨d, t, h1, h2⟩ := ih (fun q hq => hok q (by simp [hq])) (fun hh => h (by
          intro q hq
          rcases List.mem_cons.1 hq with rfl | hq
          · exact (isWs_iff c).1 hb
          · exact hh q hq))
        refine ⟨d, t, ?_, h2⟩
        show (c :: (renderText ps ++ r)).dropWhile isWs = _
        rw [List.dropWhile_cons, if_pos hb, h1]
      · refine ⟨c, renderText ps ++ r, ?_, hp.1⟩
        exact dropWs_cons (by simpa using hb) _
    · obtain ⟨t, e, -⟩ := entity_piece p (fun c hc' => hc ⟨c, hc'⟩)
      refine ⟨'&', t ++ (renderText ps ++ r), ?_, by decide⟩
      rw [e]
      exact dropWs_cons (by decide) _

theorem meaning_ne_nil (p : Piece) : p.meaning ≠ [] := by
  cases p with
  | dec c => exact utf8_ne_nil c
  | hex c => exact utf8_ne_nil c
  | hexUp c => exact utf8_ne_nil c
  | _ => simp [Piece.meaning]

theorem textOf_ne_nil {ps : List Piece} (h : ps ≠ []) : textOf ps ≠ [] := by
  cases ps with
  | nil => exact absurd rfl h
  | cons p ps =>
    rw [textOf_cons]
    intro e
    exact meaning_ne_nil p (List.append_eq_nil_iff.1 e).1

theorem renderAll_nil : Item.renderAll [] = [] := by rw [Item.renderAll]
theorem renderAll_cons (i : Item) (is : List Item) : Item.renderAll (i :: is) = i.render ++ Item.renderAll is := by
  rw [Item.renderAll]

theorem name_parts {n : Str} {as : List Attr} {w : Str} (hn : Item.NameOk n) (ha : ∀ a ∈ as, a.Ok) (hw : Blank w)
    (c : Char) (hc : c = '/' ∨ c = '>') (r : Str) :
    (n ++ (as.flatMap Attr.render ++ w ++ c :: r)).takeWhile isName = n ∧
    (n ++ (as.flatMap Attr.render ++ w ++ c :: r)).dropWhile isName = as.flatMap Attr.render ++ w ++ c :: r := by
  refine takeDrop_name (fun c hc => name_of (hn.chars c hc)) ?_
  have hws : ∀ c, isWs c = true → isName c = false := by
    intro c hc; simp [isName, hc]
  intro d hd
  cases as with
  | nil =>
    refine head_ws_append hw hws (r := c :: r) ?_ d hd
    intro e he
    simp at he; subst he
    rcases hc with rfl | rfl <;> decide
  | cons a as =>
    have hb := (ha a (by simp)).before
    cases hbe : a.before with
    | nil => exact absurd hbe hb.2
    | cons e b =>
      have : d = e := by
        simp [Attr.render, hbe] at hd; exact hd.symm
      subst this
      exact hws d ((isWs_iff d).2 (hb.1 d (by simp [hbe])))

theorem elemStep_eq {cont : Str → Str → List XNode → ContRes} {n : Str} {as : List Attr} {w : Str}
    (hn : Item.NameOk n) (ha : ∀ a ∈ as, a.Ok) (hw : Blank w) (c : Char) (hc : c = '/' ∨ c = '>') (r : Str) :
    elemStep cont (n ++ (as.flatMap Attr.render ++ w ++ c :: r)) =
      (match (c :: r : Str) with
      | '>' :: r => cont r [] [] >>= fun p => .ok (some (.elem n (as.map fun a => (a.name, textOf a.value)) p.1 p.2.1), p.2.2)
      | '/' :: '>' :: r => .ok (some (.elem n (as.map fun a => (a.name, textOf a.value)) [] []), r)
      | _ => .err) := by
  obtain ⟨h1, h2⟩ := name_parts hn ha hw c hc r
  have hp := parseAttrs_render as ha w hw c (by rcases hc with rfl | rfl <;> decide)
    (by rcases hc with rfl | rfl <;> decide) r
    ((n ++ (as.flatMap Attr.render ++ w ++ c :: r)).length + 1) (by
      have := attrs_len as
      simp only [List.length_append] at *; omega)
  unfold elemStep
  rw [h1, h2, hp]
  have : n.isEmpty = false := by
    cases n with
    | nil => exact absurd rfl hn.start.1
    | cons => rfl
  simp only [this, Out.bind_ok]
  rfl

/-- The element part of a node, given that contents are read. -/
theorem elemStep_single {cont : Str → Str → List XNode → ContRes} {n : Str} {as : List Attr} {w : Str}
    (hn : Item.NameOk n) (ha : ∀ a ∈ as, a.Ok) (hw : Blank w) (rest : Str) :
    elemStep cont (n ++ (as.flatMap Attr.render ++ w ++ '/' :: '>' :: rest)) =
      .ok (some (.elem n (as.map fun a => (a.name, textOf a.value)) [] []), rest) := by
  rw [elemStep_eq hn ha hw '/' (Or.inl rfl)]
  rfl

theorem elemStep_pair {cont : Str → Str → List XNode → ContRes} {n : Str} {as : List Attr} {w : Str}
    (hn : Item.NameOk n) (ha : ∀ a ∈ as, a.Ok) (hw : Blank w) (r rest v : Str) (ks : List XNode)
    (hc : cont r [] [] = .ok (v, ks, rest)) :
    elemStep cont (n ++ (as.flatMap Attr.render ++ w ++ '>' :: r)) =
      .ok (some (.elem n (as.map fun a => (a.name, textOf a.value)) v ks), rest) := by
  rw [elemStep_eq hn ha hw '>' (Or.inr rfl)]
  simp only [hc, Out.bind_ok]

theorem nodeStep_elem {cont : Str → Str → List XNode → ContRes} {n : Str} (hn : Item.NameOk n) (r : Str) :
    nodeStep cont (n ++ r) = elemStep cont (n ++ r) := by
  cases n with
  | nil => exact absurd rfl hn.start.1
  | cons c n =>
    have h1 : c ≠ '!' := by
      rintro rfl; exact hn.start.2 rfl
    have h2 : c ≠ '?' := by
      rintro rfl; exact absurd (hn.chars '?' (by simp)) (by decide)
    rw [List.cons_append]
    unfold nodeStep
    split <;> simp_all

theorem firstText_ok {is : List Item} (h : Item.AllOk is) : ∀ c ∈ Item.firstText is, c.toNat ≠ 0 := by
  induction is with
  | nil => simp [Item.firstText]
  | cons i is ih =>
    rw [Item.AllOk] at h
    cases i with
    | text ps =>
      rw [Item.firstText]
      split
      · exact ih h.2
      · have := h.1
        rw [Item.Ok] at this
        exact textOf_nonzero this
    | single | pair | comment | instr | cdata | docType => exact ih h.2

theorem pick_nontext {i : Item} (h : i.isText = false) (v : Str) (is : List Item) : pick v (i :: is) = pick v is := by
  cases i with
  | text => cases h
  | single | pair | comment | instr | cdata | docType => simp only [pick, Item.firstText]

theorem read_both (n : Nat) :
    (∀ (i : Item), i.isText = false → i.Ok → ∀ t rest : Str, i.render = '<' :: t → (t ++ rest).length < n →
      parseNode n (t ++ rest) = .ok (dom i, rest)) ∧
    (∀ (is : List Item), Item.AllOk is → Item.Separated is → ∀ nm w rest v : Str, Item.NameOk nm → Blank w →
      (∀ c ∈ v, c.toNat ≠ 0) → ∀ ks : List XNode,
      (Item.renderAll is ++ '<' :: '/' :: (nm ++ (w ++ '>' :: rest))).length < n →
      parseContents n (Item.renderAll is ++ '<' :: '/' :: (nm ++ (w ++ '>' :: rest))) v ks =
        .ok (pick v is, ks ++ domAll is, rest)) := by
  induction n with
  | zero => exact ⟨fun i h hok t rest _ hl => absurd hl (by omega), fun is h hs nm w rest v hn hw hv ks hl => absurd hl (by omega)⟩
  | succ n ih =>
    obtain ⟨ihN, ihC⟩ := ih
    refine ⟨?_, ?_⟩
    · intro i hi hok t rest ht hl
      rw [parseNode]
      cases i with
      | text ps => cases hi
      | single nm as w =>
        rw [Item.Ok] at hok
        obtain ⟨hn, ha, hw⟩ := hok
        have e : t ++ rest = nm ++ (as.flatMap Attr.render ++ w ++ '/' :: '>' :: rest) := by
          rw [Item.render] at ht
          simp only [List.cons_append, List.cons.injEq, true_and] at ht
          rw [← ht]; simp
        rw [e, nodeStep_elem hn, elemStep_single hn ha hw, dom]
      | pair nm as w is w' =>
        rw [Item.Ok] at hok
        obtain ⟨hn, ha, hw, his, hsep, hw'⟩ := hok
        have e : t ++ rest = nm ++ (as.flatMap Attr.render ++ w ++ '>' :: (Item.renderAll is ++ '<' :: '/' :: (nm ++ (w' ++ '>' :: rest)))) := by
          rw [Item.render] at ht
          simp only [List.cons_append, List.cons.injEq, true_and] at ht
          rw [← ht]; simp
        have hlen : (Item.renderAll is ++ '<' :: '/' :: (nm ++ (w' ++ '>' :: rest))).length < n := by
          rw [e] at hl
          simp only [List.length_append, List.length_cons] at hl ⊢; omega
        rw [e, nodeStep_elem hn, elemStep_pair hn ha hw _ rest _ _ (ihC is his hsep nm w' rest [] hn hw' (by simp) [] hlen), dom]
        rfl
      | comment s =>
        rw [Item.Ok] at hok
        have e : t ++ rest = '!' :: '-' :: '-' :: (s ++ (['-', '-'] ++ ['>']) ++ rest) := by
          rw [Item.render] at ht
          simp at ht
          rw [← ht]; simp
        rw [e]
        show skipped ((upTo (['-', '-'] ++ ['>']) (s ++ (['-', '-'] ++ ['>']) ++ rest)).map Prod.snd) = _
        rw [upTo_mark _ _ _ (by decide) hok.2]
        rfl
      | instr s =>
        rw [Item.Ok] at hok
        have e : t ++ rest = '?' :: (s ++ (['?'] ++ ['>']) ++ rest) := by
          rw [Item.render] at ht
          simp at ht
          rw [← ht]; simp
        rw [e]
        show skipped ((upTo (['?'] ++ ['>']) _).map Prod.snd) = _
        rw [upTo_mark _ _ _ (by decide) hok.2]
        rfl
      | cdata s =>
        rw [Item.Ok] at hok
        have e : t ++ rest = '!' :: '[' :: 'C' :: 'D' :: 'A' :: 'T' :: 'A' :: '[' :: (s ++ ([']', ']'] ++ ['>']) ++ rest) := by
          rw [Item.render] at ht
          simp at ht
          rw [← ht]; simp
        rw [e]
        have hu := upTo_mark [']', ']'] s rest (by decide) hok.2
        show (match upTo ([']', ']'] ++ ['>']) (s ++ ([']', ']'] ++ ['>']) ++ rest) with
          | some p => Out.ok (some (XNode.cdata p.1), p.2)
          | none => Out.err) = _
        rw [hu]
        simp only [dom]
      | docType s =>
        rw [Item.Ok] at hok
        have e : t ++ rest = '!' :: 'D' :: 'O' :: 'C' :: 'T' :: 'Y' :: 'P' :: 'E' :: ' ' :: (s ++ '>' :: rest) := by
          rw [Item.render] at ht
          simp at ht
          rw [← ht]; simp
        rw [e]
        have hu := docType_text hok.2 rest
        show skipped (docType 0 (s ++ '>' :: rest)) = _
        rw [hu]
        rfl
    · intro is his hsep nm w rest v hn hw hv ks hl
      -- what follows a text
      have tag : ∀ is : List Item, Item.AllOk is → Item.Separated is → (∀ i, is.head? = some i → i.isText = false) →
          ∀ v : Str, (∀ c ∈ v, c.toNat ≠ 0) → ∀ ks,
          (Item.renderAll is ++ '<' :: '/' :: (nm ++ (w ++ '>' :: rest))).length < n + 1 →
          tagStep (parseNode n) (parseContents n) (Item.renderAll is ++ '<' :: '/' :: (nm ++ (w ++ '>' :: rest))) v ks =
            .ok (pick v is, ks ++ domAll is, rest) := by
        intro is his hsep hh v hv ks hl
        cases is with
        | nil =>
          rw [renderAll_nil, List.nil_append]
          have hd := (takeDrop_name (p := isName) (n := nm) (fun c hc => name_of (hn.chars c hc)) (r := w ++ '>' :: rest)
            (head_ws_append hw (fun c hc => by simp [isName, hc]) (by intro c hc; simp at hc; subst hc; decide))).2
          unfold tagStep
          simp only []
          rw [hd, dropWs_blank hw, dropWs_cons (by decide)]
          simp only [domAll, List.append_nil, pick, Item.firstText]
          split <;> simp_all
        | cons i is =>
          have hi := hh i rfl
          rw [Item.AllOk] at his
          obtain ⟨c, t, hr, hc⟩ := render_tag i hi his.1
          have hs' : Item.Separated is := by
            cases is with
            | nil => trivial
            | cons j is => exact hsep.2
          have e : Item.renderAll (i :: is) ++ '<' :: '/' :: (nm ++ (w ++ '>' :: rest)) =
              '<' :: ((c :: t) ++ (Item.renderAll is ++ '<' :: '/' :: (nm ++ (w ++ '>' :: rest)))) := by
            rw [renderAll_cons, hr]; simp
          rw [e] at hl ⊢
          have h1 := ihN i hi his.1 (c :: t) (Item.renderAll is ++ '<' :: '/' :: (nm ++ (w ++ '>' :: rest))) hr (by
            simp only [List.length_cons] at hl; omega)
          have h2 := ihC is his.2 hs' nm w rest v hn hw hv (ks ++ (dom i).toList) (by
            simp only [List.length_cons, List.length_append] at hl ⊢; omega)
          have hts : ∀ s : Str, tagStep (parseNode n) (parseContents n) ('<' :: ((c :: t) ++ s)) v ks =
              (parseNode n ((c :: t) ++ s) >>= fun p => parseContents n p.2 v (ks ++ p.1.toList)) := by
            intro s
            unfold tagStep
            split
            · rename_i heq
              simp only [List.cons_append, List.cons.injEq, true_and] at heq
              exact absurd heq.1 hc
            · rename_i heq
              simp only [List.cons.injEq, true_and] at heq
              rw [heq]
            · rename_i h3
              exact absurd rfl (h3 _)
          rw [hts, h1]
          simp only [Out.bind_ok]
          rw [h2, pick_nontext hi, domAll, List.append_assoc]
      rw [parseContents]
      unfold contStep
      by_cases hh : ∀ i, is.head? = some i → i.isText = false
      · have hd : (Item.renderAll is ++ '<' :: '/' :: (nm ++ (w ++ '>' :: rest))).dropWhile isWs =
            Item.renderAll is ++ '<' :: '/' :: (nm ++ (w ++ '>' :: rest)) := by
          cases is with
          | nil => rw [renderAll_nil]; exact dropWs_cons (by decide) _
          | cons i is =>
            rw [Item.AllOk] at his
            obtain ⟨c, t, hr, hc⟩ := render_tag i (hh i rfl) his.1
            rw [renderAll_cons, hr]
            exact dropWs_cons (by decide) _
        have ht := tag is his hsep hh v hv ks hl
        obtain ⟨t, et⟩ : ∃ t, Item.renderAll is ++ '<' :: '/' :: (nm ++ (w ++ '>' :: rest)) = '<' :: t := by
          cases is with
          | nil => exact ⟨_, by rw [renderAll_nil]; rfl⟩
          | cons i is =>
            rw [Item.AllOk] at his
            obtain ⟨c, t, hr, hc⟩ := render_tag i (hh i rfl) his.1
            exact ⟨c :: t ++ (Item.renderAll is ++ '<' :: '/' :: (nm ++ (w ++ '>' :: rest))), by rw [renderAll_cons, hr]; simp⟩
        rw [et] at hd ht ⊢
        rw [hd]
        simp only [if_true]
        exact ht
      · push Not at hh
        obtain ⟨i, hi, hit⟩ := hh
        cases is with
        | nil => cases hi
        | cons j is =>
        cases hi
        cases i with
        | text ps =>
          rw [Item.AllOk] at his
          have hps := his.1
          rw [Item.Ok] at hps
          have hs' : Item.Separated is ∧ ∀ i, is.head? = some i → i.isText = false := by
            cases is with
            | nil => exact ⟨trivial, by simp⟩
            | cons j is =>
              refine ⟨hsep.2, ?_⟩
              intro i hi
              cases hi
              exact hsep.1 rfl
          have e : Item.renderAll (.text ps :: is) ++ '<' :: '/' :: (nm ++ (w ++ '>' :: rest)) =
              renderText ps ++ (Item.renderAll is ++ '<' :: '/' :: (nm ++ (w ++ '>' :: rest))) := by
            rw [renderAll_cons, Item.render]; simp
          have hlen : (Item.renderAll is ++ '<' :: '/' :: (nm ++ (w ++ '>' :: rest))).length < n + 1 := by
            rw [e] at hl; simp only [List.length_append] at hl ⊢; omega
          obtain ⟨t, et⟩ : ∃ t, Item.renderAll is ++ '<' :: '/' :: (nm ++ (w ++ '>' :: rest)) = '<' :: t := by
            cases is with
            | nil => exact ⟨_, by rw [renderAll_nil]; rfl⟩
            | cons i is =>
              have h2 := his.2
              rw [Item.AllOk] at h2
              obtain ⟨c, t, hr, hc⟩ := render_tag i (hs'.2 i rfl) h2.1
              exact ⟨c :: t ++ (Item.renderAll is ++ '<' :: '/' :: (nm ++ (w ++ '>' :: rest))), by rw [renderAll_cons, hr]; simp⟩
          rw [e]
          by_cases hb : ∀ p ∈ ps, p.IsBlank
          · have ht := tag is his.2 hs'.1 hs'.2 v hv ks hlen
            rw [dropWs_text hb, et, dropWs_cons (by decide)]
            rw [et] at ht
            simp only [if_true]
            rw [ht, domAll, dom, if_pos hb]
            simp only [pick, Item.firstText, if_pos hb]
            rfl
          · obtain ⟨c, t', h1, h2⟩ := dropWs_nonblank hps hb (Item.renderAll is ++ '<' :: '/' :: (nm ++ (w ++ '>' :: rest)))
            have hx := expand_text '<' (by decide) ps hps (Item.renderAll is ++ '<' :: '/' :: (nm ++ (w ++ '>' :: rest)))
              (Or.inr (by rw [et]; rfl)) _ (Nat.lt_succ_self _)
            rw [h1]
            simp only [if_neg h2]
            rw [hx]
            simp only [Out.bind_ok, cstr_id hv]
            have hne : textOf ps ≠ [] := textOf_ne_nil (by rintro rfl; exact hb (by simp))
            have ht := tag is his.2 hs'.1 hs'.2 (if v.isEmpty = true then textOf ps else v) (by
              split
              · exact textOf_nonzero hps
              · exact hv) (ks ++ [.data (textOf ps)]) hlen
            rw [ht, domAll, dom, if_neg hb]
            simp only [pick, Item.firstText, if_neg hb]
            congr 1
            congr 1
            · cases v with
              | nil => simp [hne]
              | cons c v => simp
            · simp
        | single | pair | comment | instr | cdata | docType => exact absurd hit (by simp [Item.isText])

/-! ### The tree of properties -/

mutual
theorem toPn_dom (i : Item) (h : i.Ok) : toPnKids (dom i).toList = i.adds := by
  cases i with
  | text ps =>
    rw [dom]
    simp only [Item.adds]
    split
    · simp [toPnKids]
    · simp [toPnKids, XNode.name]
  | single n as w =>
    rw [Item.Ok] at h
    have hne : n.isEmpty = false := by
      cases n with
      | nil => exact absurd rfl h.1.start.1
      | cons => rfl
    simp only [dom, Item.adds, Option.toList_some, toPnKids, XNode.name, hne, toPn, Item.attrKids, List.map_map,
      List.append_nil]
    simp only [Bool.false_eq_true, if_false, List.cons.injEq, Prod.mk.injEq, true_and, and_true, PropNode.mk.injEq]
    refine ⟨rfl, ?_⟩
    apply List.map_congr_left
    intro a ha
    simp only [Function.comp, cstr_id (textOf_nonzero (h.2.1 a ha).value)]
  | pair n as w is w' =>
    rw [Item.Ok] at h
    have hne : n.isEmpty = false := by
      cases n with
      | nil => exact absurd rfl h.1.start.1
      | cons => rfl
    have ih := toPn_domAll is h.2.2.2.1
    simp only [dom, Item.adds, Option.toList_some, toPnKids, XNode.name, hne, toPn, Item.attrKids, List.map_map, ih,
      cstr_id (firstText_ok h.2.2.2.1)]
    simp only [Bool.false_eq_true, if_false, List.cons.injEq, Prod.mk.injEq, true_and, and_true, PropNode.mk.injEq,
      List.append_cancel_right_eq]
    apply List.map_congr_left
    intro a ha
    simp only [Function.comp, cstr_id (textOf_nonzero (h.2.1 a ha).value)]
  | cdata s => simp [dom, Item.adds, toPnKids, XNode.name]
  | comment s | instr s | docType s => simp [dom, Item.adds, toPnKids]
theorem toPn_domAll (is : List Item) (h : Item.AllOk is) : toPnKids (domAll is) = Item.addsAll is := by
  cases is with
  | nil => rw [domAll, Item.addsAll, toPnKids]
  | cons i is =>
    rw [Item.AllOk] at h
    have h1 := toPn_dom i h.1
    have h2 := toPn_domAll is h.2
    rw [domAll, Item.addsAll, ← h1, ← h2]
    generalize (dom i) = o
    cases o with
    | none => simp [toPnKids]
    | some x =>
      simp only [Option.toList_some, List.cons_append, List.nil_append, toPnKids]
      split <;> simp
end

/-! ### Documents -/

theorem parseTop_items : ∀ (is : List Item), Item.AllOk is → (∀ i ∈ is, i.TopLevel) → ∀ n, (Item.renderAll is).length < n →
    parseTop n (Item.renderAll is) = .ok (domAll is)
  | [], _, _, n, hn => by
    obtain ⟨n, rfl⟩ : ∃ m, n = m + 1 := ⟨n - 1, by omega⟩
    rw [renderAll_nil, parseTop, domAll]; rfl
  | i :: is, hok, htop, n, hn => by
    rw [Item.AllOk] at hok
    have ih := parseTop_items is hok.2 (fun j hj => htop j (by simp [hj]))
    have ht := htop i (by simp)
    cases hi : i.isText with
    | true =>
      cases i with
      | text ps =>
        have ht : ∀ p ∈ ps, p.IsBlank := ht
        have e : Item.renderAll (.text ps :: is) = renderText ps ++ Item.renderAll is := by rw [renderAll_cons, Item.render]
        have hn' : (Item.renderAll is).length < n := by
          rw [e, List.length_append] at hn; omega
        have ih := ih n hn'
        obtain ⟨n, rfl⟩ : ∃ m, n = m + 1 := ⟨n - 1, by omega⟩
        rw [domAll, dom, if_pos ht, e]
        rw [parseTop] at ih ⊢
        rw [dropWs_text ht, ih]
        rfl
      | single | pair | comment | instr | cdata | docType => cases hi
    | false =>
      obtain ⟨c, t, hr, -⟩ := render_tag i hi hok.1
      obtain ⟨n, rfl⟩ : ∃ m, n = m + 1 := ⟨n - 1, by omega⟩
      have e : Item.renderAll (i :: is) = '<' :: ((c :: t) ++ Item.renderAll is) := by rw [renderAll_cons, hr]; rfl
      rw [e] at hn ⊢
      rw [parseTop, dropWs_cons (by decide)]
      simp only [if_true]
      have h1 := (read_both n).1 i hi hok.1 (c :: t) (Item.renderAll is) hr (by simp only [List.length_cons] at hn; omega)
      rw [h1]
      simp only [Out.bind_ok]
      rw [ih n (by simp only [List.length_cons, List.length_append] at hn; omega), domAll]
      rfl

theorem attr_nonzero {a : Attr} (h : a.Ok) : ∀ c ∈ a.render, c.toNat ≠ 0 := by
  have hb : ∀ w : Str, Blank w → ∀ c ∈ w, c.toNat ≠ 0 := by
    intro w hw c hc
    rcases hw c hc with rfl | rfl | rfl | rfl <;> decide
  have hq : a.quote.toNat ≠ 0 := by rcases h.quote with e | e <;> rw [e] <;> decide
  intro c hc
  simp only [Attr.render, List.append_assoc, List.mem_append, List.mem_cons, List.cons_append, List.not_mem_nil,
    or_false] at hc
  rcases hc with hc | hc | hc | rfl | hc | rfl | hc | rfl
  · exact hb _ h.before.1 c hc
  · exact (h.name.1 c hc).2
  · exact hb _ h.left c hc
  · decide
  · exact hb _ h.right c hc
  · exact hq
  · exact renderText_nonzero h.value c hc
  · exact hq

mutual
theorem render_nonzero (i : Item) (h : i.Ok) : ∀ c ∈ i.render, c.toNat ≠ 0 := by
  have hb : ∀ w : Str, Blank w → ∀ c ∈ w, c.toNat ≠ 0 := by
    intro w hw c hc
    rcases hw c hc with rfl | rfl | rfl | rfl <;> decide
  intro c hc
  cases i with
  | text ps =>
    rw [Item.Ok] at h
    exact renderText_nonzero h c hc
  | single n as w =>
    rw [Item.Ok] at h
    simp only [Item.render, List.mem_append, List.mem_cons, List.cons_append, List.mem_flatMap, List.not_mem_nil,
      or_false] at hc
    rcases hc with rfl | ((hc | ⟨a, ha, hc⟩) | hc) | rfl | rfl
    · decide
    · exact (h.1.chars c hc).2
    · exact attr_nonzero (h.2.1 a ha) c hc
    · exact hb _ h.2.2 c hc
    · decide
    · decide
  | pair n as w is w' =>
    rw [Item.Ok] at h
    have ih := renderAll_nonzero is h.2.2.2.1
    simp only [Item.render, List.mem_append, List.mem_cons, List.cons_append, List.append_assoc, List.mem_flatMap,
      List.not_mem_nil, or_false] at hc
    rcases hc with rfl | hc | ⟨a, ha, hc⟩ | hc | rfl | hc | rfl | rfl | hc | hc | rfl
    · decide
    · exact (h.1.chars c hc).2
    · exact attr_nonzero (h.2.1 a ha) c hc
    · exact hb _ h.2.2.1 c hc
    · decide
    · exact ih c hc
    · decide
    · decide
    · exact (h.1.chars c hc).2
    · exact hb _ h.2.2.2.2.2 c hc
    · decide
  | comment s | instr s | cdata s | docType s =>
    rw [Item.Ok] at h
    simp only [Item.render, List.mem_append] at hc
    rcases hc with (hc | hc) | hc
    · revert c; decide
    · exact h.1 c hc
    · revert c; decide
theorem renderAll_nonzero (is : List Item) (h : Item.AllOk is) : ∀ c ∈ Item.renderAll is, c.toNat ≠ 0 := by
  cases is with
  | nil => rw [renderAll_nil]; simp
  | cons i is =>
    rw [Item.AllOk] at h
    have h1 := render_nonzero i h.1
    have h2 := renderAll_nonzero is h.2
    intro c hc
    rw [renderAll_cons] at hc
    rcases List.mem_append.1 hc with hc | hc
    · exact h1 c hc
    · exact h2 c hc
end

/-! ### Every text is read or refused -/

/-- The call returns, and what remains has at most `len` characters. -/
def Fine {α : Type} (len : Nat) (f : α → Str) : Out α → Prop
  | .ok a => (f a).length ≤ len
  | .err => True
  | .ub => False
  | .div => False

theorem Fine.mono {α : Type} {l l' : Nat} {f : α → Str} {o : Out α} (h : Fine l f o) (hl : l ≤ l') : Fine l' f o := by
  cases o <;> simp_all [Fine]; omega

theorem Fine.bind {α β : Type} {l l' : Nat} {f : α → Str} {g : β → Str} {o : Out α} {k : α → Out β} (h : Fine l f o)
    (hk : ∀ a, (f a).length ≤ l → Fine l' g (k a)) : Fine l' g (o >>= k) := by
  cases o with
  | ok a => exact hk a h
  | err => trivial
  | ub => exact h
  | div => exact h

theorem numeric_len {s o t : Str} (h : numeric s = .repl o t) : t.length < s.length := by
  have hc : (numCode s).2.length ≤ s.length := by
    unfold numCode
    split
    · exact Nat.le_succ_of_le (readDigits_len _ _ _)
    · exact readDigits_len _ _ _
  unfold numeric at h
  split at h
  · cases h
  · split at h
    · rename_i heq
      cases h
      rw [heq, List.length_cons] at hc
      omega
    · cases h

theorem after_some {pat s t : Str} (h : after pat s = some t) : s = pat ++ t := by
  unfold after at h
  split at h
  · rename_i hp
    cases h
    obtain ⟨u, rfl⟩ := List.isPrefixOf_iff_prefix.1 hp
    simp
  · cases h

theorem entity_len {s o t : Str} (h : entity s = .repl o t) : t.length < s.length := by
  unfold entity at h
  split at h
  · rename_i r hr; cases h; rw [after_some hr]; simp only [List.length_append, List.length_cons]; omega
  split at h
  · rename_i r hr; cases h; rw [after_some hr]; simp only [List.length_append, List.length_cons]; omega
  split at h
  · rename_i r hr; cases h; rw [after_some hr]; simp only [List.length_append, List.length_cons]; omega
  split at h
  · rename_i r hr; cases h; rw [after_some hr]; simp only [List.length_append, List.length_cons]; omega
  split at h
  · rename_i r hr; cases h; rw [after_some hr]; simp only [List.length_append, List.length_cons]; omega
  split at h
  · have := numeric_len h; simp only [List.length_cons]; omega
  · cases h

theorem expand_fine (go : Char → Bool) : ∀ (n : Nat) (s : Str), s.length < n → Fine s.length Prod.snd (expand go n s)
  | 0, s, h => absurd h (by omega)
  | n + 1, [], _ => by simp [expand, Fine]
  | n + 1, c :: r, h => by
    rw [expand]
    simp only [List.length_cons] at h ⊢
    have cont : ∀ t : Str, t.length ≤ r.length → ∀ o : Str,
        Fine (r.length + 1) Prod.snd (expand go n t >>= fun p => Out.ok (o ++ p.1, p.2)) := by
      intro t ht o
      refine Fine.bind (expand_fine go n t (by omega)) ?_
      intro a ha
      show a.2.length ≤ _
      omega
    split
    · split
      · split
        · exact cont r (le_refl _) [c]
        · rename_i heq
          exact cont _ (le_of_lt (entity_len heq)) _
        · trivial
      · exact cont r (le_refl _) [c]
    · simp [Fine]

theorem drop_len (p : Char → Bool) (s : Str) : (s.dropWhile p).length ≤ s.length := (List.dropWhile_suffix _).length_le

theorem parseAttr_fine (c : Char) (s : Str) (h : isAttrName c = true) : Fine s.length Prod.snd (parseAttr (c :: s)) := by
  have hd : ((c :: s).dropWhile isAttrName).dropWhile isWs = (s.dropWhile isAttrName).dropWhile isWs := by
    rw [List.dropWhile_cons, if_pos h]
  have h1 := drop_len isAttrName s
  have h2 := drop_len isWs (s.dropWhile isAttrName)
  unfold parseAttr
  rw [hd]
  split
  · rename_i r heq
    rw [heq, List.length_cons] at h2
    have h3 := drop_len isWs r
    split
    · rename_i q r' heq'
      rw [heq', List.length_cons] at h3
      split
      · refine Fine.bind (expand_fine _ _ _ (Nat.lt_succ_self _)) ?_
        intro a ha
        split
        · rename_i x r'' hx
          rw [hx, List.length_cons] at ha
          have := drop_len isWs r''
          show (r''.dropWhile isWs).length ≤ _
          omega
        · trivial
      · trivial
    · trivial
  · trivial

theorem parseAttrs_fine : ∀ (n : Nat) (s : Str), s.length < n → Fine s.length Prod.snd (parseAttrs n s)
  | 0, s, h => absurd h (by omega)
  | n + 1, [], _ => by simp [parseAttrs, Fine]
  | n + 1, c :: r, h => by
    rw [parseAttrs]
    simp only [List.length_cons] at h ⊢
    split
    · rename_i hc
      refine Fine.bind (parseAttr_fine c r hc) ?_
      intro a ha
      refine Fine.bind (parseAttrs_fine n a.2 (by omega)) ?_
      intro p hp
      show p.2.length ≤ _
      omega
    · simp [Fine]

theorem upTo_len (m : Str) : ∀ (s : Str) {p : Str × Str}, upTo m s = some p → p.2.length ≤ s.length
  | [], p, h => by cases h
  | c :: r, p, h => by
    rw [upTo] at h
    split at h
    · cases h
      simp only [List.length_drop]; omega
    · cases hu : upTo m r with
      | none => rw [hu] at h; cases h
      | some q =>
        rw [hu] at h
        cases h
        have := upTo_len m r hu
        simp only [List.length_cons]; omega

theorem docType_len : ∀ (s : Str) (d : Nat) {t : Str}, docType d s = some t → t.length ≤ s.length
  | [], d, t, h => by cases d <;> cases h
  | c :: r, 0, t, h => by
    rw [docType] at h
    simp only [List.length_cons]
    split at h
    · cases h; omega
    · split at h <;> (have := docType_len r _ h; omega)
  | c :: r, d + 1, t, h => by
    rw [docType] at h
    simp only [List.length_cons]
    split at h
    · have := docType_len r _ h; omega
    · split at h <;> (have := docType_len r _ h; omega)

theorem skipped_upTo (m r : Str) (l : Nat) (h : r.length ≤ l) : Fine l Prod.snd (skipped ((upTo m r).map Prod.snd)) := by
  cases hu : upTo m r with
  | none => trivial
  | some p =>
    have := upTo_len m r hu
    show p.2.length ≤ l
    omega

theorem elemStep_fine (cont : Str → Str → List XNode → ContRes) (s : Str)
    (hc : ∀ r : Str, r.length < s.length → ∀ v ks, Fine r.length (fun p => p.2.2) (cont r v ks)) :
    Fine s.length Prod.snd (elemStep cont s) := by
  unfold elemStep
  split
  · trivial
  · have h1 := drop_len isName s
    have h2 := drop_len isWs (s.dropWhile isName)
    refine Fine.bind (l := s.length) ((parseAttrs_fine (s.length + 1) _ (by omega)).mono (by omega)) ?_
    intro a ha
    split
    · rename_i r heq
      rw [heq, List.length_cons] at ha
      refine Fine.bind (hc r (by omega) [] []) ?_
      intro p hp
      show p.2.2.length ≤ _
      omega
    · rename_i r heq
      rw [heq, List.length_cons, List.length_cons] at ha
      show r.length ≤ _
      omega
    · trivial

theorem bang_fine (r : Str) : Fine r.length Prod.snd (bang r) := by
  unfold bang
  split
  · rename_i t ht
    rw [after_some ht]
    exact skipped_upTo _ _ _ (by simp only [List.length_append]; omega)
  split
  · rename_i t ht
    rw [after_some ht]
    split
    · rename_i p heq
      have := upTo_len _ _ heq
      show p.2.length ≤ _
      simp only [List.length_append]; omega
    · trivial
  split
  · rename_i w t ht
    split
    · cases hd : docType 0 t with
      | none => trivial
      | some u =>
        have := docType_len _ _ hd
        show u.length ≤ _
        rw [after_some ht]
        simp only [List.length_append, List.length_cons]; omega
    · exact skipped_upTo _ _ _ (le_refl _)
  · exact skipped_upTo _ _ _ (le_refl _)

theorem nodeStep_fine (cont : Str → Str → List XNode → ContRes) (s : Str)
    (hc : ∀ r : Str, r.length < s.length → ∀ v ks, Fine r.length (fun p => p.2.2) (cont r v ks)) :
    Fine s.length Prod.snd (nodeStep cont s) := by
  unfold nodeStep
  split
  · exact skipped_upTo _ _ _ (by simp only [List.length_cons]; omega)
  · exact (bang_fine _).mono (by simp)
  · exact elemStep_fine cont s hc

theorem tagStep_fine (node : Str → NodeRes) (cont : Str → Str → List XNode → ContRes) (s : Str)
    (hn : ∀ r : Str, r.length < s.length → Fine r.length Prod.snd (node r))
    (hc : ∀ r : Str, r.length < s.length → ∀ v ks, Fine r.length (fun p => p.2.2) (cont r v ks)) (v : Str) (ks : List XNode) :
    Fine s.length (fun p => p.2.2) (tagStep node cont s v ks) := by
  unfold tagStep
  split
  · rename_i r
    have h1 := drop_len isName r
    have h2 := drop_len isWs (r.dropWhile isName)
    split
    · rename_i r' heq
      rw [heq, List.length_cons] at h2
      show r'.length ≤ _
      simp only [List.length_cons]; omega
    · trivial
  · rename_i r _
    refine Fine.bind (hn r (by simp)) ?_
    intro p hp
    exact (hc p.2 (by simp only [List.length_cons]; omega) _ _).mono (by simp only [List.length_cons]; omega)
  · trivial

theorem contStep_fine (node : Str → NodeRes) (cont : Str → Str → List XNode → ContRes) (s : Str)
    (hn : ∀ r : Str, r.length < s.length → Fine r.length Prod.snd (node r))
    (hc : ∀ r : Str, r.length < s.length → ∀ v ks, Fine r.length (fun p => p.2.2) (cont r v ks)) (v : Str) (ks : List XNode) :
    Fine s.length (fun p => p.2.2) (contStep node cont s v ks) := by
  unfold contStep
  have h1 := drop_len isWs s
  split
  · trivial
  · rename_i c r heq
    rw [heq] at h1
    split
    · exact (tagStep_fine node cont (c :: r) (fun t ht => hn t (by omega)) (fun t ht => hc t (by omega)) v ks).mono h1
    · refine Fine.bind (expand_fine _ _ _ (Nat.lt_succ_self _)) ?_
      intro p hp
      exact (tagStep_fine node cont p.2 (fun t ht => hn t (by omega)) (fun t ht => hc t (by omega)) _ _).mono hp

theorem read_fine (n : Nat) : (∀ s : Str, s.length < n → Fine s.length Prod.snd (parseNode n s)) ∧
    (∀ s : Str, s.length < n → ∀ v ks, Fine s.length (fun p => p.2.2) (parseContents n s v ks)) := by
  induction n with
  | zero => exact ⟨fun s h => absurd h (by omega), fun s h => absurd h (by omega)⟩
  | succ n ih =>
    refine ⟨fun s h => ?_, fun s h v ks => ?_⟩
    · rw [parseNode]
      exact nodeStep_fine _ s (fun r hr => ih.2 r (by omega))
    · rw [parseContents]
      exact contStep_fine _ _ s (fun r hr => ih.1 r (by omega)) (fun r hr => ih.2 r (by omega)) v ks

theorem parseTop_fine : ∀ (n : Nat) (s : Str), s.length < n → Fine 0 (fun _ => []) (parseTop n s)
  | 0, s, h => absurd h (by omega)
  | n + 1, s, h => by
    rw [parseTop]
    have h1 := drop_len isWs s
    split
    · simp [Fine]
    · rename_i c r heq
      rw [heq, List.length_cons] at h1
      split
      · refine Fine.bind ((read_fine n).1 r (by omega)) ?_
        intro p hp
        refine Fine.bind (parseTop_fine n p.2 (by omega)) ?_
        intro ks _
        simp [Fine]
      · trivial

end Xo.Xml
