import Verif.Model.Tokens
import Verif.Lemmas.ZmlLex

/-!
C115: tokens with any delimiters, quotation marks and operators.
-/
namespace Xo.Tok
open Xo.Zml (quoteLoop)

namespace Spec

/-- Settings: operators are not empty and have no delimiters, quotation marks or zeros; `"` is a quotation mark; delimiters and quotation marks have no zeros. -/
structure Good (g : Cfg) : Prop where
  ops : ∀ op ∈ g.ops, op ≠ [] ∧ ∀ c ∈ op, c ∉ g.delims ∧ c ∉ g.quotes ∧ c ≠ Char.ofNat 0
  quote : '"' ∈ g.quotes
  apart : ∀ c ∈ g.quotes, c ∉ g.delims
  zeros : Char.ofNat 0 ∉ g.delims ∧ Char.ofNat 0 ∉ g.quotes

/-- What a text consists of: words, words in quotation marks, operators. -/
inductive Item where
  | word (s : Str)
  | quoted (s : Str)
  | op (s : Str)

/-- As it is written. -/
def Item.written : Item → Str
  | .word s => s
  | .quoted s => Xo.quoted s
  | .op s => s

/-- As it should be read. -/
def Item.read : Item → Str
  | .word s => s
  | .quoted s => s
  | .op s => s

/-- Words are not empty, and have no delimiters, quotation marks, zeros or characters with which an operator begins; words in quotation marks are not empty and are
made of ASCII characters other than zero; operators are among the operators. -/
def Item.Ok (g : Cfg) : Item → Prop
  | .word s => s ≠ [] ∧ ∀ c ∈ s, c ∉ g.delims ∧ c ∉ g.quotes ∧ c ≠ Char.ofNat 0 ∧ ∀ op ∈ g.ops, op.head? ≠ some c
  | .quoted s => s ≠ [] ∧ ∀ c ∈ s, 1 ≤ c.toNat ∧ c.toNat ≤ 127
  | .op s => s ∈ g.ops

/-- Items, each with what is between it and the next. -/
def text : List (Item × Str) → Str
  | [] => []
  | (i, sep) :: is => i.written ++ sep ++ text is

/-- Between two items there are delimiters, at least one; but none is needed between a word and an operator. -/
def Separated (g : Cfg) : List (Item × Str) → Prop
  | [] => True
  | (i, sep) :: is => (∀ c ∈ sep, c ∈ g.delims) ∧ (sep ≠ [] ∨ is = [] ∨ ((∀ s, i ≠ .op s) ∧ ∃ s r rest, is = (.op s, r) :: rest)) ∧ Separated g is

end Spec
open _root_.Xo.Tok.Spec

theorem cstr_self (s : Str) (h : Char.ofNat 0 ∉ s) : cstr s = s := by
  unfold cstr
  induction s with
  | nil => rfl
  | cons c s ih =>
    have hc : c ≠ Char.ofNat 0 := fun e => h (by simp [e])
    rw [List.takeWhile_cons_of_pos (by simpa using hc), ih fun hm => h (by simp [hm])]

theorem isDelim_iff (g : Cfg) (h : Good g) (c : Char) : g.isDelim c = true ↔ c ∈ g.delims ∨ c = Char.ofNat 0 := by
  simp [Cfg.isDelim, cstr_self _ h.zeros.1]

theorem isQuote_iff (g : Cfg) (h : Good g) (c : Char) : g.isQuote c = true ↔ c ∈ g.quotes := by
  simp [Cfg.isQuote, cstr_self _ h.zeros.2]

theorem mem_insertOp (op : Str) (os : List Str) (x : Str) : x ∈ insertOp op os ↔ x = op ∨ x ∈ os := by
  induction os with
  | nil => simp [insertOp]
  | cons o os ih =>
    simp only [insertOp]
    split
    · simp only [List.mem_cons, ih]; tauto
    · simp only [List.mem_cons]

theorem mem_sortOps (ops : List Str) (x : Str) : x ∈ sortOps ops ↔ x ∈ ops := by
  induction ops with
  | nil => simp [sortOps]
  | cons o os ih =>
    have : sortOps (o :: os) = insertOp o (sortOps os) := rfl
    rw [this, mem_insertOp, ih, List.mem_cons]

/-- Longest first. -/
def Desc : List Str → Prop
  | [] => True
  | o :: os => (∀ p ∈ os, p.length ≤ o.length) ∧ Desc os

theorem desc_insertOp (op : Str) (os : List Str) (h : Desc os) : Desc (insertOp op os) := by
  induction os with
  | nil => exact ⟨by simp, trivial⟩
  | cons o os ih =>
    simp only [insertOp]
    split
    · next hl =>
      refine ⟨fun p hp => ?_, ih h.2⟩
      rcases (mem_insertOp op os p).1 hp with rfl | hp
      · omega
      · exact h.1 p hp
    · next hl =>
      refine ⟨fun p hp => ?_, h⟩
      rcases List.mem_cons.1 hp with rfl | hp
      · omega
      · have := h.1 p hp; omega

theorem desc_sortOps (ops : List Str) : Desc (sortOps ops) := by
  induction ops with
  | nil => trivial
  | cons o os ih => exact desc_insertOp o _ ih

theorem find_desc (os : List Str) (h : Desc os) (s op : Str) (hf : (os.find? fun op => op.isPrefixOf s) = some op) :
    ∀ p ∈ os, p <+: s → p.length ≤ op.length := by
  induction os with
  | nil => cases hf
  | cons o os ih =>
    intro p hp hps
    simp only [List.find?_cons] at hf
    split at hf
    · cases hf
      rcases List.mem_cons.1 hp with rfl | hp
      · exact Nat.le_refl _
      · exact h.1 p hp
    · next hno =>
      rcases List.mem_cons.1 hp with rfl | hp
      · rw [List.isPrefixOf_iff_prefix.2 hps] at hno; cases hno
      · exact ih h.2 hf p hp hps

/-- **C115, the longest operator.** Where operators begin, the longest of them is taken; and one is found exactly if the text begins with one. -/
theorem C115_longest (g : Cfg) (s : Str) :
    (∀ op, g.check s = some op ↔ op ∈ g.ops ∧ op <+: s ∧ ∀ p ∈ g.ops, p <+: s → p.length ≤ op.length) ∧
    (g.check s = none ↔ ∀ op ∈ g.ops, ¬ op <+: s) := by
  have hnone : g.check s = none ↔ ∀ op ∈ g.ops, ¬ op <+: s := by
    simp only [Cfg.check, List.find?_eq_none, mem_sortOps, List.isPrefixOf_iff_prefix]
  refine ⟨fun op => ⟨fun h => ?_, fun ⟨h1, h2, h3⟩ => ?_⟩, hnone⟩
  · refine ⟨(mem_sortOps _ _).1 (List.mem_of_find?_eq_some h), List.isPrefixOf_iff_prefix.1 (List.find?_some h :), fun p hp hps => ?_⟩
    exact find_desc _ (desc_sortOps g.ops) s op h p ((mem_sortOps _ _).2 hp) hps
  · cases hc : g.check s with
    | none => exact absurd h2 (hnone.1 hc op h1)
    | some q =>
      have a1 := (mem_sortOps _ _).1 (List.mem_of_find?_eq_some hc)
      have a2 : q <+: s := List.isPrefixOf_iff_prefix.1 (List.find?_some hc :)
      have a3 := find_desc _ (desc_sortOps g.ops) s q hc op ((mem_sortOps _ _).2 h1) h2
      have a4 := h3 q a1 a2
      have : op = q := List.IsPrefix.eq_of_length_le (List.prefix_of_prefix_length_le h2 a2 a3) a4
      rw [this]

theorem tokLoop_nil (g : Cfg) (acc pend : Str) : tokLoop g acc pend [] = some (acc ++ pend, []) := by unfold tokLoop; rfl

theorem tokLoop_cons (g : Cfg) (acc pend : Str) (c : Char) (cs : Str) : tokLoop g acc pend (c :: cs) =
    if g.isDelim c then some (acc ++ pend, c :: cs)
    else if g.isQuote c then
      match quoteLoop c acc cs with
      | some (acc', s') => tokLoop g acc' [] s'
      | none => none
    else match g.check (c :: cs) with
      | some op => if pend.isEmpty && acc.isEmpty then some (op, (c :: cs).drop op.length) else some (acc ++ pend, c :: cs)
      | none => tokLoop g acc (pend ++ [c]) cs := by
  conv => lhs; unfold tokLoop
  split
  · rfl
  · split
    · split <;> rename_i h <;> rw [h]
    · split <;> rename_i h <;> rw [h]

/-- Where a token ends: at the end, at a delimiter, or where an operator begins. -/
def Ends (g : Cfg) (s : Str) : Prop := s = [] ∨ ∃ c cs, s = c :: cs ∧ (c ∈ g.delims ∨ (c ∉ g.quotes ∧ ∃ op, g.check s = some op))

theorem tokLoop_ends (g : Cfg) (hg : Good g) (acc pend s : Str) (h : Ends g s) (hne : acc ≠ [] ∨ pend ≠ []) :
    tokLoop g acc pend s = some (acc ++ pend, s) := by
  rcases h with rfl | ⟨c, cs, rfl, hc⟩
  · exact tokLoop_nil g acc pend
  · rw [tokLoop_cons]
    by_cases hd : g.isDelim c = true
    · rw [if_pos hd]
    · rw [if_neg hd]
      rcases hc with hc | ⟨hq, op, hop⟩
      · exact absurd ((isDelim_iff g hg c).2 (.inl hc)) hd
      · rw [if_neg (fun h => hq ((isQuote_iff g hg c).1 h)), hop]
        have : (pend.isEmpty && acc.isEmpty) = false := by
          rcases hne with h | h <;> simp [h]
        simp [this]

/-- A plain character starts no operator. -/
theorem check_plain (g : Cfg) (hg : Good g) (c : Char) (cs : Str) (h : ∀ op ∈ g.ops, op.head? ≠ some c) : g.check (c :: cs) = none := by
  rw [(C115_longest g (c :: cs)).2]
  rintro op hop ⟨t, ht⟩
  have := (hg.ops op hop).1
  cases op with
  | nil => exact this rfl
  | cons x xs =>
    simp only [List.cons_append, List.cons.injEq] at ht
    exact h (x :: xs) hop (by simp [ht.1])

theorem tokLoop_word (g : Cfg) (hg : Good g) (w : Str) (hw : ∀ c ∈ w, c ∉ g.delims ∧ c ∉ g.quotes ∧ c ≠ Char.ofNat 0 ∧ ∀ op ∈ g.ops, op.head? ≠ some c) :
    ∀ (acc pend s : Str), tokLoop g acc pend (w ++ s) = tokLoop g acc (pend ++ w) s := by
  induction w with
  | nil => intro acc pend s; simp
  | cons c w ih =>
    intro acc pend s
    obtain ⟨h1, h2, h3, h4⟩ := hw c (by simp)
    rw [List.cons_append, tokLoop_cons, if_neg (fun h => by rcases (isDelim_iff g hg c).1 h with h | h <;> contradiction),
      if_neg (fun h => h2 ((isQuote_iff g hg c).1 h)), check_plain g hg c _ h4]
    simp only
    rw [ih (fun x hx => hw x (by simp [hx])), List.append_assoc]
    rfl

/-- An item is read when it is followed by its end; nothing before it is skipped. -/
theorem tokLoop_item (g : Cfg) (hg : Good g) (i : Item) (hi : i.Ok g) (s : Str)
    (hs : Ends g s ∧ ∀ o, i = .op o → s = [] ∨ ∃ c cs, s = c :: cs ∧ c ∈ g.delims) : tokLoop g [] [] (i.written ++ s) = some (i.read, s) := by
  cases i with
  | word w =>
    simp only [Item.written, Item.read]
    rw [tokLoop_word g hg w hi.2, tokLoop_ends g hg _ _ _ hs.1 (.inr (by simpa using hi.1))]
    simp
  | quoted w =>
    simp only [Item.written, Item.read]
    have hq : Xo.quoted w ++ s = '"' :: (w.flatMap (fun c => if c = '"' ∨ c = '\\' ∨ schar c < 32 then encodeChar c else [c]) ++ '"' :: s) := by
      simp [Xo.quoted]
    have hd : ¬ g.isDelim '"' = true := fun h => by
      rcases (isDelim_iff g hg _).1 h with h | h
      · exact hg.apart _ hg.quote h
      · revert h; decide
    rw [hq, tokLoop_cons, if_neg hd, if_pos ((isQuote_iff g hg _).2 hg.quote)]
    have := Xo.Zml.quoteLoop_quoted (s := w) hi.2 [] s
    simp only [List.nil_append] at this
    have e : quoteLoop '"' [] (w.flatMap (fun c => if c = '"' ∨ c = '\\' ∨ schar c < 32 then encodeChar c else [c]) ++ '"' :: s) = some (w, s) := by
      exact this
    rw [e]
    simp only
    rw [tokLoop_ends g hg _ _ _ hs.1 (.inl hi.1)]
    simp
  | op o =>
    simp only [Item.written, Item.read]
    obtain ⟨hne, hch⟩ := hg.ops o hi
    cases o with
    | nil => exact absurd rfl hne
    | cons c cs =>
      obtain ⟨h1, h2, h3⟩ := hch c (by simp)
      rw [List.cons_append, tokLoop_cons, if_neg (fun h => by rcases (isDelim_iff g hg c).1 h with h | h <;> contradiction),
        if_neg (fun h => h2 ((isQuote_iff g hg c).1 h))]
      have hck : g.check (c :: (cs ++ s)) = some (c :: cs) := by
        refine ((C115_longest g _).1 _).2 ⟨hi, ⟨s, rfl⟩, fun p hp hps => ?_⟩
        by_contra hlen
        have hlen : (c :: cs).length < p.length := Nat.lt_of_not_le hlen
        obtain ⟨t, ht⟩ := hps
        rcases hs.2 _ rfl with rfl | ⟨x, xs, rfl, hx⟩
        · have := congrArg List.length ht
          simp only [List.length_append, List.length_cons, List.append_nil] at this hlen
          omega
        · have hxp : x ∈ p := by
            have e : p ++ t = (c :: cs) ++ x :: xs := ht
            have hget : (p ++ t)[(c :: cs).length]? = some x := by
              rw [e, List.getElem?_append_right (Nat.le_refl _)]
              simp
            rw [List.getElem?_append_left hlen] at hget
            exact List.mem_of_getElem? hget
          exact ((hg.ops p hp).2 x hxp).1 hx
      rw [hck]
      simp

theorem dropWhile_delims (g : Cfg) (hg : Good g) (sep s : Str) (h : ∀ c ∈ sep, c ∈ g.delims) : (sep ++ s).dropWhile g.isDelim = s.dropWhile g.isDelim := by
  induction sep with
  | nil => rfl
  | cons c sep ih =>
    rw [List.cons_append, List.dropWhile_cons_of_pos ((isDelim_iff g hg c).2 (.inl (h c (by simp))))]
    exact ih fun x hx => h x (by simp [hx])

/-- The text of an item begins with no delimiter. -/
theorem written_head (g : Cfg) (hg : Good g) (i : Item) (hi : i.Ok g) (s : Str) : (i.written ++ s).dropWhile g.isDelim = i.written ++ s := by
  have key : ∀ c cs, c ∉ g.delims → c ≠ Char.ofNat 0 → ((c :: cs : Str) ++ s).dropWhile g.isDelim = (c :: cs) ++ s := by
    intro c cs h1 h2
    rw [List.cons_append, List.dropWhile_cons_of_neg]
    intro h
    rcases (isDelim_iff g hg c).1 h with h | h <;> contradiction
  cases i with
  | word w =>
    cases w with
    | nil => exact absurd rfl hi.1
    | cons c w => obtain ⟨h1, h2, h3, h4⟩ := hi.2 c (by simp); exact key c w h1 h3
  | quoted w =>
    have : Item.written (.quoted w) = '"' :: (w.flatMap (fun c => if c = '"' ∨ c = '\\' ∨ schar c < 32 then encodeChar c else [c]) ++ ['"']) := rfl
    rw [this]
    exact key '"' _ (hg.apart _ hg.quote) (by decide)
  | op o =>
    obtain ⟨hne, hch⟩ := hg.ops o hi
    cases o with
    | nil => exact absurd rfl hne
    | cons c o => obtain ⟨h1, h2, h3⟩ := hch c (by simp); exact key c o h1 h3

/-- **C115, tokens (partial).** A text made of words, words in quotation marks and operators, with delimiters between them, is read back as these. -/
theorem C115_tokens_partial (g : Cfg) (hg : Good g) (lead : Str) (hl : ∀ c ∈ lead, c ∈ g.delims) (is : List (Item × Str)) (hi : ∀ p ∈ is, p.1.Ok g)
    (hs : Separated g is) : ∃ rest, (∀ c ∈ rest, c ∈ g.delims) ∧ getTokens g is.length (lead ++ text is) = some (is.map fun p => p.1.read, rest) := by
  induction is generalizing lead with
  | nil => exact ⟨lead, hl, by simp [getTokens, text]⟩
  | cons p is ih =>
    obtain ⟨i, sep⟩ := p
    obtain ⟨s1, s2, s3⟩ := hs
    have hiok : i.Ok g := hi (i, sep) (by simp)
    obtain ⟨rest, hr, hrest⟩ := ih sep s1 (fun q hq => hi q (by simp [hq])) s3
    refine ⟨rest, hr, ?_⟩
    have hends : Ends g (sep ++ text is) ∧ ∀ o, i = .op o → sep ++ text is = [] ∨ ∃ c cs, sep ++ text is = c :: cs ∧ c ∈ g.delims := by
      cases sep with
      | cons c sep => exact ⟨.inr ⟨c, sep ++ text is, rfl, .inl (s1 c (by simp))⟩, fun o _ => .inr ⟨c, sep ++ text is, rfl, s1 c (by simp)⟩⟩
      | nil =>
        rcases s2 with h | rfl | ⟨hno, o, r, rest', rfl⟩
        · exact absurd rfl h
        · exact ⟨.inl rfl, fun _ _ => .inl rfl⟩
        · refine ⟨?_, fun o' ho' => absurd ho' (hno o')⟩
          have hop : o ∈ g.ops := hi (.op o, r) (by simp)
          obtain ⟨hne, hch⟩ := hg.ops o hop
          cases o with
          | nil => exact absurd rfl hne
          | cons c o =>
            obtain ⟨_, h2, _⟩ := hch c (by simp)
            refine .inr ⟨c, o ++ r ++ text rest', rfl, .inr ⟨h2, ?_⟩⟩
            cases hck : g.check ([] ++ text ((.op (c :: o), r) :: rest')) with
            | some q => exact ⟨q, rfl⟩
            | none =>
              have := (C115_longest g _).2.1 hck (c :: o) hop
              exact absurd ⟨r ++ text rest', by simp [text, Item.written]⟩ this
    have ht : getToken g (lead ++ text ((i, sep) :: is)) = some (i.read, sep ++ text is) := by
      unfold getToken
      rw [dropWhile_delims g hg _ _ hl]
      simp only [text, List.append_assoc]
      rw [written_head g hg i hiok]
      exact tokLoop_item g hg i hiok _ hends
    simp only [List.length_cons, getTokens, ht, Option.bind_some, hrest, Option.map_some, List.map_cons]

theorem dropWhile_split (g : Cfg) (s : Str) : ∃ d, (∀ c ∈ d, g.isDelim c = true) ∧ s = d ++ s.dropWhile g.isDelim := by
  induction s with
  | nil => exact ⟨[], by simp, rfl⟩
  | cons c s ih =>
    by_cases h : g.isDelim c = true
    · obtain ⟨d, h1, h2⟩ := ih
      refine ⟨c :: d, fun x hx => ?_, ?_⟩
      · rcases List.mem_cons.1 hx with rfl | hx
        · exact h
        · exact h1 x hx
      · rw [List.dropWhile_cons_of_pos h, List.cons_append, ← h2]
    · exact ⟨[], by simp, by rw [List.dropWhile_cons_of_neg h]; rfl⟩

theorem tokLoop_whole (g : Cfg) (hq : g.quotes = []) (s : Str) : ∀ (pend t r : Str), tokLoop g [] pend s = some (t, r) →
    pend ++ s = t ++ r ∧ ((∃ op ∈ g.ops, t = op ∧ pend = []) ∨ ∃ u, t = pend ++ u ∧ ∀ c ∈ u, g.isDelim c = false) := by
  induction s with
  | nil =>
    intro pend t r h
    rw [tokLoop_nil] at h
    cases h
    exact ⟨by simp, .inr ⟨[], by simp, by simp⟩⟩
  | cons c s ih =>
    intro pend t r h
    rw [tokLoop_cons] at h
    by_cases hd : g.isDelim c = true
    · rw [if_pos hd] at h
      cases h
      exact ⟨by simp, .inr ⟨[], by simp, by simp⟩⟩
    · have hnq : ¬ g.isQuote c = true := by simp [Cfg.isQuote, hq, cstr]
      rw [if_neg hd, if_neg hnq] at h
      cases hc : g.check (c :: s) with
      | some op =>
        rw [hc] at h
        simp only at h
        obtain ⟨h1, ⟨u, hu⟩, _⟩ := ((C115_longest g _).1 op).1 hc
        split at h
        · rename_i he
          have hp : pend = [] := by simpa using he
          subst hp
          simp only [Option.some.injEq, Prod.mk.injEq] at h
          obtain ⟨rfl, rfl⟩ := h
          rw [← hu]
          exact ⟨by simp, .inl ⟨op, h1, rfl, rfl⟩⟩
        · simp only [Option.some.injEq, Prod.mk.injEq] at h
          obtain ⟨rfl, rfl⟩ := h
          exact ⟨by simp, .inr ⟨[], by simp, by simp⟩⟩
      | none =>
        rw [hc] at h
        obtain ⟨h1, h2⟩ := ih (pend ++ [c]) t r h
        refine ⟨by rw [← h1]; simp, ?_⟩
        rcases h2 with ⟨_, _, _, hp⟩ | ⟨u, hu, hu2⟩
        · simp at hp
        · refine .inr ⟨c :: u, by rw [hu]; simp, fun x hx => ?_⟩
          rcases List.mem_cons.1 hx with rfl | hx
          · simpa using hd
          · exact hu2 x hx

/-- **C115, nothing is lost.** Without quotation marks every text can be read; a token is a piece of the text, only delimiters are skipped, and only operators
contain any. -/
theorem C115_nothing_lost (g : Cfg) (hq : g.quotes = []) (s : Str) : ∃ d t r, getToken g s = some (t, r) ∧ s = d ++ t ++ r ∧
    (∀ c ∈ d, g.isDelim c = true) ∧ (t ∈ g.ops ∨ ∀ c ∈ t, g.isDelim c = false) := by
  obtain ⟨d, hd, hs⟩ := dropWhile_split g s
  have total : ∀ (u pend : Str), ∃ t r, tokLoop g [] pend u = some (t, r) := by
    intro u
    induction u with
    | nil => intro pend; exact ⟨_, _, tokLoop_nil g [] pend⟩
    | cons c u ih =>
      intro pend
      rw [tokLoop_cons]
      have hnq : ¬ g.isQuote c = true := by simp [Cfg.isQuote, hq, cstr]
      by_cases hc : g.isDelim c = true
      · rw [if_pos hc]; exact ⟨_, _, rfl⟩
      · rw [if_neg hc, if_neg hnq]
        cases g.check (c :: u) with
        | none => exact ih _
        | some op =>
          simp only
          split
          · exact ⟨_, _, rfl⟩
          · exact ⟨_, _, rfl⟩
  obtain ⟨t, r, ht⟩ := total (s.dropWhile g.isDelim) []
  obtain ⟨h1, h2⟩ := tokLoop_whole g hq _ [] t r ht
  refine ⟨d, t, r, ht, ?_, hd, ?_⟩
  · rw [List.append_assoc, ← h1]; exact hs
  · rcases h2 with ⟨op, hop, rfl, _⟩ | ⟨u, rfl, hu⟩
    · exact .inl hop
    · exact .inr (by simpa using hu)

/-- A token is only empty at the end of the text. -/
theorem C115_progress (g : Cfg) (hq : g.quotes = []) (ho : [] ∉ g.ops) (s r : Str) (h : getToken g s = some ([], r)) : ∀ c ∈ s, g.isDelim c = true := by
  obtain ⟨d, hd, hs⟩ := dropWhile_split g s
  unfold getToken at h
  cases hw : s.dropWhile g.isDelim with
  | nil => rw [hw, List.append_nil] at hs; rw [hs]; exact hd
  | cons c cs =>
    exfalso
    have hc : ¬ g.isDelim c = true := by
      have := List.head_dropWhile_not g.isDelim (l := s) (by rw [hw]; simp)
      simp only [hw, List.head_cons] at this
      simp [this]
    rw [hw, tokLoop_cons, if_neg hc, if_neg (by simp [Cfg.isQuote, hq, cstr])] at h
    cases hk : g.check (c :: cs) with
    | some op =>
      rw [hk] at h
      simp at h
      have := (((C115_longest g _).1 op).1 hk).1
      rw [h.1] at this
      exact ho this
    | none =>
      rw [hk] at h
      obtain ⟨_, h2⟩ := tokLoop_whole g hq cs _ _ _ h
      rcases h2 with ⟨_, _, _, hp⟩ | ⟨u, hu, _⟩
      · simp at hp
      · simp at hu

/-- **C115, violated.** A word before a quotation mark is lost. -/
theorem C115_word_before_quote_violated (g : Cfg) (hg : Good g) (w q s : Str) (hw : (Item.word w).Ok g) (hq : (Item.quoted q).Ok g) (hs : Ends g s) :
    getToken g (w ++ Xo.quoted q ++ s) = some (q, s) := by
  have e : getToken g (w ++ Xo.quoted q ++ s) = tokLoop g [] w (Xo.quoted q ++ s) := by
    unfold getToken
    have := written_head g hg (.word w) hw (Xo.quoted q ++ s)
    simp only [Item.written, ← List.append_assoc] at this
    rw [this, List.append_assoc, tokLoop_word g hg w hw.2]
    simp
  have hd : ¬ g.isDelim '"' = true := fun h => by
    rcases (isDelim_iff g hg _).1 h with h | h
    · exact hg.apart _ hg.quote h
    · revert h; decide
  have h2 := tokLoop_item g hg (.quoted q) hq s ⟨hs, fun o ho => by cases ho⟩
  simp only [Item.written, Item.read] at h2
  have hqq : Xo.quoted q ++ s = '"' :: (q.flatMap (fun c => if c = '"' ∨ c = '\\' ∨ schar c < 32 then encodeChar c else [c]) ++ '"' :: s) := by
    simp [Xo.quoted]
  rw [e]
  rw [hqq, tokLoop_cons, if_neg hd, if_pos ((isQuote_iff g hg _).2 hg.quote)] at h2 ⊢
  exact h2

/-- **C115, violated.** An empty word in quotation marks directly before an operator is lost. -/
theorem C115_empty_before_operator_violated (g : Cfg) (hg : Good g) (op s : Str) (ho : op ∈ g.ops) (hs : s = [] ∨ ∃ c cs, s = c :: cs ∧ c ∈ g.delims) :
    getToken g (Xo.quoted [] ++ op ++ s) = some (op, s) := by
  have hd : ¬ g.isDelim '"' = true := fun h => by
    rcases (isDelim_iff g hg _).1 h with h | h
    · exact hg.apart _ hg.quote h
    · revert h; decide
  have e : Xo.quoted [] ++ op ++ s = '"' :: '"' :: (op ++ s) := rfl
  unfold getToken
  rw [e, List.dropWhile_cons_of_neg hd, tokLoop_cons, if_neg hd, if_pos ((isQuote_iff g hg _).2 hg.quote)]
  have hz : quoteLoop '"' [] ('"' :: (op ++ s)) = some ([], op ++ s) := by
    rw [quoteLoop.eq_def]; simp
  rw [hz]
  exact tokLoop_item g hg (.op op) ho s ⟨by
    rcases hs with h | ⟨c, cs, h1, h2⟩
    · exact .inl h
    · exact .inr ⟨c, cs, h1, .inl h2⟩, fun _ _ => hs⟩

/-- **C115, violated.** With an empty operator, reading does not get past a character with which no other operator begins: the tokens are empty for ever. -/
theorem C115_empty_operator_violated (g : Cfg) (ho : [] ∈ g.ops) (c : Char) (cs : Str) (hd : g.isDelim c = false) (hq : g.isQuote c = false)
    (hn : ∀ op ∈ g.ops, op <+: c :: cs → op = []) (n : Nat) : getTokens g n (c :: cs) = some (List.replicate n [], c :: cs) := by
  have hc : g.check (c :: cs) = some [] := by
    refine ((C115_longest g _).1 _).2 ⟨ho, List.nil_prefix, fun p hp hps => ?_⟩
    have := hn p hp hps
    subst this
    exact Nat.le_refl _
  have ht : getToken g (c :: cs) = some ([], c :: cs) := by
    unfold getToken
    rw [List.dropWhile_cons_of_neg (by simp [hd]), tokLoop_cons, if_neg (by simp [hd]), if_neg (by simp [hq]), hc]
    simp
  induction n with
  | zero => rfl
  | succ n ih => simp only [getTokens, ht, Option.bind_some, ih, Option.map_some, List.replicate_succ]

/-- Not vacuous. -/
def exampleCfg : Cfg := ⟨[' ', ','], ['"', '\''], [['='], ['=', '='], ['<']]⟩

theorem example_good : Good exampleCfg := by
  refine ⟨?_, ?_, ?_, ?_⟩ <;> decide +kernel

example : Separated exampleCfg [(.word ['a', 'b'], []), (.op ['=', '='], [',', ' ']), (.quoted ['x', ' ', '"'], [' ']), (.op ['='], [])] := by
  refine ⟨by simp, .inr (.inr ⟨by simp, ['=', '='], [',', ' '], _, rfl⟩), ?_⟩
  refine ⟨by decide +kernel, .inl (by simp), ?_⟩
  exact ⟨by decide +kernel, .inl (by simp), by simp, .inr (.inl rfl), trivial⟩

example : getTokens exampleCfg 4 "ab==, \"x \\\"\" =".toList = some (["ab".toList, "==".toList, "x \"".toList, "=".toList], []) := by decide +kernel

end Xo.Tok
