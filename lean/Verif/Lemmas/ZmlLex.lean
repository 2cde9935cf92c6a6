import Verif.Props.C22_ZmlSeparators
import Verif.Props.C24_Quoting
import Verif.Spec.Zml

/-!
The texts that the ZML writers produce for keys and values are read as one token.
-/
namespace Xo
namespace Zml
open Spec

/-- What may follow a key or value in a written text. -/
def Bnd (r : Str) : Prop := r = [] ∨ ∃ c r', r = c :: r' ∧ c ∈ [' ', '\n', '=', '{', '}', '[', ']']

/-- What may follow it in the normal layout. -/
def Bnd0 (r : Str) : Prop := r = [] ∨ ∃ c r', r = c :: r' ∧ c ∈ [' ', '\n']

theorem Bnd0.bnd {r : Str} (h : Bnd0 r) : Bnd r := by
  rcases h with h | ⟨c, r', h, hc⟩
  · exact .inl h
  · refine .inr ⟨c, r', h, ?_⟩
    simp only [List.mem_cons, List.not_mem_nil, or_false] at hc ⊢
    rcases hc with h | h <;> simp [h]

theorem quoteLoop_piece {c : Char} (h : 1 ≤ c.toNat ∧ c.toNat ≤ 127) (acc rest : Str) :
    quoteLoop '"' acc (quotePiece c ++ rest) = quoteLoop '"' (acc ++ [c]) rest := by
  have hb : Xo.Spec.Byte c := by unfold Xo.Spec.Byte; omega
  have hf := quoteForm_all c hb
  have hr : readBack c = [c] := by simp [readBack, h]
  unfold quoteForm at hf
  split at hf
  · next x hx =>
    simp only [Bool.and_eq_true, decide_eq_true_eq] at hf
    obtain ⟨⟨⟨rfl, h1⟩, h2⟩, h3⟩ := hf
    rw [hx, List.cons_append, List.nil_append, quoteLoop.eq_def]
    simp only [if_neg h1, if_neg h2]
  · next e he =>
    simp only [Bool.and_eq_true, decide_eq_true_eq, Bool.or_eq_true] at hf
    obtain ⟨⟨h1, h2⟩, h3⟩ := hf
    have hd : decodeChar ('\\' :: e :: rest) = .ok (c, 2) := by
      rw [← h1]
      rcases h2 with (((rfl | rfl) | rfl) | rfl) | rfl <;> simp [decodeChar]
    rw [he, List.cons_append, List.cons_append, List.nil_append, quoteLoop.eq_def]
    simp only [if_neg (show ('\\' : Char) ≠ '"' by decide), if_true, hd]
    rfl
  · next d1 d2 d3 t he =>
    simp only [Bool.and_eq_true, decide_eq_true_eq, List.all_eq_true] at hf
    obtain ⟨⟨⟨a1, a2, b1, b2, c1, c2⟩, h2⟩, h3⟩ := hf
    rw [hr] at h3
    simp only [List.cons.injEq] at h3
    obtain ⟨h3, rfl⟩ := h3
    have hd := decode_octal rest ⟨a1, a2, b1, b2, c1, c2⟩
    simp only [← h3] at hd
    rw [he, List.cons_append, List.cons_append, List.cons_append, List.cons_append, List.nil_append, quoteLoop.eq_def]
    simp only [if_neg (show ('\\' : Char) ≠ '"' by decide), if_true, hd]
    rfl
  · cases hf

theorem quoteLoop_quoted {s : Str} (h : ∀ c ∈ s, 1 ≤ c.toNat ∧ c.toNat ≤ 127) (acc r : Str) :
    quoteLoop '"' acc (s.flatMap quotePiece ++ '"' :: r) = some (acc ++ s, r) := by
  induction s generalizing acc with
  | nil => rw [List.flatMap_nil, List.nil_append, quoteLoop.eq_def]; simp
  | cons c s ih =>
    rw [List.flatMap_cons, List.append_assoc, quoteLoop_piece (h c (by simp)), ih (fun x hx => h x (by simp [hx]))]
    simp

/-- A token that is not empty ends at a boundary. -/
theorem tokLoop_bnd {acc pend r : Str} (h : Bnd r) (hne : acc ++ pend ≠ []) : tokLoop acc pend r = some (acc ++ pend, r) := by
  have he : (pend.isEmpty && acc.isEmpty) = false := by
    cases pend <;> cases acc <;> simp_all
  rcases h with rfl | ⟨c, r', rfl, hc⟩
  · rw [tokLoop.eq_def]
  · rw [tokLoop.eq_def]
    simp only [List.mem_cons, List.not_mem_nil, or_false] at hc
    rcases hc with rfl | rfl | rfl | rfl | rfl | rfl | rfl <;>
      simp [isDelim, isQuote, checkOperator, operators, he]

theorem tokLoop_bnd0 {acc pend r : Str} (h : Bnd0 r) : tokLoop acc pend r = some (acc ++ pend, r) := by
  rcases h with rfl | ⟨c, r', rfl, hc⟩
  · rw [tokLoop.eq_def]
  · rw [tokLoop.eq_def]
    simp only [List.mem_cons, List.not_mem_nil, or_false] at hc
    rcases hc with rfl | rfl <;> simp [isDelim]

theorem needsQuotes_iff {s : Str} (h : ∀ c ∈ s, 1 ≤ c.toNat ∧ c.toNat ≤ 127) : needsQuotes special s = true ↔ Quoted s := by
  unfold needsQuotes Quoted
  rw [Bool.or_eq_true, List.any_eq_true, List.isEmpty_iff, or_comm]
  apply or_congr Iff.rfl
  apply exists_congr
  intro c
  apply and_congr_right
  intro hc
  have hr := h c hc
  have hs : schar c = c.toNat := by unfold schar; rw [if_pos (by omega)]
  have h0 : c ≠ Char.ofNat 0 := by rintro rfl; simp at hr
  have hl : "\"{}[]#<>\\/".toList = '"' :: special := by decide
  rw [hs, hl, List.mem_cons]
  simp only [Bool.or_eq_true, decide_eq_true_eq, List.contains_iff_mem, h0, or_false]
  rw [or_assoc]
  apply or_congr
  · omega
  · exact Iff.rfl

/-- A text without special characters, blanks, quotes and `=` is one token. -/
theorem tokLoop_plain {s pend r : Str} (hr : Bnd r)
    (h : ∀ c ∈ s, 33 ≤ c.toNat ∧ c ∉ "\"{}[]#<>\\/".toList ∧ c ≠ '\'' ∧ c ≠ '=') (hl : s.getLast? ≠ some ':')
    (hne : pend ++ s ≠ []) : tokLoop [] pend (s ++ r) = some (pend ++ s, r) := by
  induction s generalizing pend with
  | nil => simpa using tokLoop_bnd (acc := []) (pend := pend) hr (by simpa using hne)
  | cons c s ih =>
    have hc := h c (by simp)
    obtain ⟨c1, c2, c3, c4⟩ := hc
    simp only [String.reduceToList, List.mem_cons, List.not_mem_nil, or_false, not_or] at c2
    obtain ⟨q1, q2, q3, q4, q5, q6, q7, q8, q9, q10⟩ := c2
    have hd : isDelim c = false := by
      have : ∀ d ∈ [' ', '\n', '\r', '\t', Char.ofNat 11, Char.ofNat 0], d.toNat < 33 := by decide
      unfold isDelim
      rw [Bool.eq_false_iff]
      intro hx
      have := this c (by simpa using hx)
      omega
    have hq : isQuote c = false := by simp [isQuote, q1, c3]
    have hop : checkOperator (c :: (s ++ r)) = none := by
      have hcol : ∀ x, c = ':' → (s ++ r).head? = some x → x ≠ ' ' := by
        intro x hx hh
        cases s with
        | nil => subst hx; exact absurd rfl hl
        | cons d s =>
          have := (h d (by simp)).1
          simp only [List.cons_append, List.head?_cons, Option.some.injEq] at hh
          rintro rfl
          subst hh
          simp at this
      have hst : ∀ x, (s ++ r).head? = some x → x ≠ '/' := by
        intro x hh
        cases s with
        | nil =>
          rcases hr with rfl | ⟨d, r', rfl, hd2⟩
          · simp at hh
          · simp only [List.nil_append, List.head?_cons, Option.some.injEq] at hh
            subst hh
            simp only [List.mem_cons, List.not_mem_nil, or_false] at hd2
            rcases hd2 with rfl | rfl | rfl | rfl | rfl | rfl | rfl <;> decide
        | cons d s =>
          have := (h d (by simp)).2.1
          simp only [List.cons_append, List.head?_cons, Option.some.injEq] at hh
          rintro rfl
          subst hh
          simp at this
      cases hx : s ++ r with
      | nil => simp [checkOperator, operators, List.isPrefixOf, Ne.symm c4, Ne.symm q2, Ne.symm q3, Ne.symm q4, Ne.symm q5,
          Ne.symm q6]
      | cons x z =>
        rw [hx] at hcol hst
        have e1 := hst x rfl
        have e2 : ¬ (':' = c ∧ ' ' = x) := by
          rintro ⟨h1, h2⟩
          exact hcol x h1.symm rfl h2.symm
        unfold checkOperator
        rw [List.find?_eq_none]
        simp only [operators, List.mem_cons, List.not_mem_nil, or_false]
        rintro op (rfl | rfl | rfl | rfl | rfl | rfl | rfl | rfl | rfl | rfl | rfl | rfl) <;>
          simp [Ne.symm c4, Ne.symm q2, Ne.symm q3, Ne.symm q4, Ne.symm q5, Ne.symm q6, Ne.symm q7,
          Ne.symm q8, Ne.symm q9, Ne.symm q10, Ne.symm e1]
        intro h1 h2
        exact e2 ⟨h1, h2⟩
    rw [List.cons_append, tokLoop.eq_def]
    simp only [hd, hq, hop, Bool.false_eq_true, if_false]
    rw [ih (fun x hx => h x (by simp [hx]))]
    · simp
    · intro e
      apply hl
      rw [List.getLast?_cons, e]
      rfl
    · simp

/-- What the writers write for a key or value is read back as one token. -/
theorem getToken_piece {s r : Str} (h : SafeText s) (hr : Bnd r) (h0 : s = [] → Bnd0 r) :
    getToken (tryQuoted special s ++ r) = some (s, r) ∧ skipDelims (tryQuoted special s ++ r) ≠ [] := by
  obtain ⟨h1, h2, -⟩ := h
  by_cases hn : needsQuotes special s = true
  · have hq : tryQuoted special s = '"' :: (s.flatMap quotePiece ++ ['"']) := by
      rw [tryQuoted, if_pos hn, quoted_eq]
    have hs : skipDelims (tryQuoted special s ++ r) = '"' :: (s.flatMap quotePiece ++ '"' :: r) := by
      rw [hq]; simp [skipDelims, isDelim]
    refine ⟨?_, by rw [hs]; simp⟩
    unfold getToken
    rw [hs, tokLoop_quote (by decide) (by decide), quoteLoop_quoted h1]
    simp only [List.nil_append, Option.bind_some]
    by_cases he : s = []
    · rw [tokLoop_bnd0 (h0 he)]; simp
    · rw [tokLoop_bnd hr (by simpa using he)]; simp
  · have hnq : ¬ Quoted s := fun e => hn ((needsQuotes_iff h1).2 e)
    rw [tryQuoted, if_neg hn]
    rcases h2 with h2 | ⟨h2, h3⟩
    · exact absurd h2 hnq
    · unfold Quoted at hnq
      rw [not_or] at hnq
      obtain ⟨hne, hnc⟩ := hnq
      have hpl : ∀ c ∈ s, 33 ≤ c.toNat ∧ c ∉ "\"{}[]#<>\\/".toList ∧ c ≠ '\'' ∧ c ≠ '=' := by
        intro c hc
        have h5 : ¬ (c.toNat < 33 ∨ c ∈ "\"{}[]#<>\\/".toList) := fun e => hnc ⟨c, hc, e⟩
        rw [not_or] at h5
        exact ⟨by omega, h5.2, h2 c hc⟩
      cases s with
      | nil => exact absurd rfl hne
      | cons c s =>
        have hs : skipDelims (c :: s ++ r) = c :: s ++ r := by
          have : isDelim c = false := by
            have h6 : ∀ d ∈ [' ', '\n', '\r', '\t', Char.ofNat 11, Char.ofNat 0], d.toNat < 33 := by decide
            unfold isDelim
            rw [Bool.eq_false_iff]
            intro hx
            have := h6 c (by simpa using hx)
            have := (hpl c (by simp)).1
            omega
          simp [skipDelims, this]
        refine ⟨?_, by rw [hs]; simp⟩
        unfold getToken
        rw [hs, tokLoop_plain hr hpl h3 (by simp)]
        simp

/-- Reading `a` in front of `r` gives the tokens `ts`, and then those of `r`. -/
def Lx (a : Str) (ts : List Str) (r : Str) : Prop := lexAll (a ++ r) = (ts ++ (lexAll r).1, (lexAll r).2)

theorem Lx.nil (r : Str) : Lx [] [] r := by simp [Lx]

theorem Lx.append {a b : Str} {ts us : List Str} {r : Str} (h1 : Lx a ts (b ++ r)) (h2 : Lx b us r) : Lx (a ++ b) (ts ++ us) r := by
  unfold Lx at *
  rw [List.append_assoc, h1, h2]
  simp

theorem Lx.piece {s r : Str} (h : SafeText s) (hr : Bnd r) (h0 : s = [] → Bnd0 r) : Lx (tryQuoted special s) [s] r := by
  have hp := getToken_piece h hr h0
  have hz : zmlToken (tryQuoted special s ++ r) = .tok s r := by
    rw [zmlToken_some hp.2 hp.1, afterToken, if_neg (by simp [h.2.2.1, h.2.2.2.1]), if_neg h.2.2.2.2]
  unfold Lx
  rw [lexAll_tok hz]
  rfl

theorem Lx.delim {c : Char} (h : isDelim c = true) (r : Str) : Lx [c] [] r := by
  unfold Lx
  rw [List.cons_append, List.nil_append, lexAll_congr (zmlToken_delim h r)]
  rfl

theorem Lx.tabs (n : Nat) (r : Str) : Lx (List.replicate n '\t') [] r := by
  induction n with
  | zero => exact Lx.nil r
  | succ n ih =>
    rw [List.replicate_succ, ← List.singleton_append]
    exact Lx.append (ts := []) (us := []) (Lx.delim (by decide) _) ih

theorem Lx.op {c : Char} (hc : c ∈ ['=', '{', '}', '[', ']']) (r : Str) : Lx [c] [[c]] r := by
  have hz : zmlToken (c :: r) = .tok [c] r := by
    simp only [List.mem_cons, List.not_mem_nil, or_false] at hc
    have hop : checkOperator (c :: r) = some [c] := by
      rcases hc with rfl | rfl | rfl | rfl | rfl <;> simp [checkOperator, operators]
    have hd : isDelim c = false := by rcases hc with rfl | rfl | rfl | rfl | rfl <;> decide
    have hq : isQuote c = false := by rcases hc with rfl | rfl | rfl | rfl | rfl <;> decide
    have h1 : c ≠ '#' := by rcases hc with rfl | rfl | rfl | rfl | rfl <;> decide
    rw [zmlToken_some (by simp [skipDelims, hd]) (getToken_op hd hq hop), afterToken, if_neg (by simp [h1]),
      if_neg (by simp)]
    rfl
  unfold Lx
  rw [List.cons_append, List.nil_append, lexAll_tok hz]
  rfl

end Zml
end Xo
