import Verif.Props.C21_ZmlTermination

/-!
C22: whitespace and comments between tokens are insignificant.
-/
namespace Xo
namespace Zml

/-- A character that separates tokens: blank, tab, vertical tab, line feed or carriage return. -/
def Spec.Blank (c : Char) : Prop := c = ' ' ∨ c = '\t' ∨ c = '\n' ∨ c = '\r' ∨ c = Char.ofNat 11

/-- What may stand between tokens: blanks, comments up to the end of the line, and comments between `/*` and `*/` (without NUL). -/
inductive Spec.Gap : Str → Prop
  | nil : Gap []
  | blank {c : Char} {g : Str} : Spec.Blank c → Gap g → Gap (c :: g)
  | hash {body g : Str} {e : Char} : (∀ c ∈ body, c ≠ '\n' ∧ c ≠ '\r' ∧ c ≠ Char.ofNat 0) → e = '\n' ∨ e = '\r' → Gap g →
      Gap ('#' :: (body ++ e :: g))
  | slashes {body g : Str} {e : Char} : (∀ c ∈ body, c ≠ '\n' ∧ c ≠ '\r' ∧ c ≠ Char.ofNat 0) → e = '\n' ∨ e = '\r' → Gap g →
      Gap ('/' :: '/' :: (body ++ e :: g))
  | block {body g : Str} : (∀ c ∈ body, c ≠ Char.ofNat 0) → (∀ x y, body ++ ['*'] ≠ x ++ '*' :: '/' :: y) → Gap g →
      Gap ('/' :: '*' :: (body ++ '*' :: '/' :: g))

open Spec

theorem isDelim_blank {c : Char} (h : Blank c) : isDelim c = true := by
  rcases h with rfl | rfl | rfl | rfl | rfl <;> decide

/-! ### Separators in front of a token -/

theorem zmlToken_eof {s : Str} (h : skipDelims s = []) : zmlToken s = .eof := by
  rw [zmlToken.eq_def, dif_pos h]

theorem zmlToken_none {s : Str} (h : skipDelims s ≠ []) (hg : getToken s = none) : zmlToken s = .div := by
  rw [zmlToken.eq_def, dif_neg h]
  split
  · rfl
  · next e => rw [hg] at e; cases e

/-- What `get_zml_token` does with a token. -/
def afterToken (t r : Str) : Step :=
  if t = ['#'] ∨ t = ['/', '/'] then zmlToken (skipLine r)
  else if t = ['/', '*'] then
    match seekPast r with
    | some r' => zmlToken r'
    | none => .bad
  else .tok t r

theorem zmlToken_some {s t r : Str} (h : skipDelims s ≠ []) (hg : getToken s = some (t, r)) :
    zmlToken s = afterToken t r := by
  rw [zmlToken.eq_def, dif_neg h]
  split
  · next e => rw [hg] at e; cases e
  · next e =>
    rw [hg] at e
    cases e
    unfold afterToken
    split
    · rfl
    · split
      · split <;> next e => rw [e]
      · rfl

theorem zmlToken_congr {s s' : Str} (hs : skipDelims s = skipDelims s') : zmlToken s = zmlToken s' := by
  have hg : getToken s = getToken s' := by simp only [getToken, hs]
  by_cases h : skipDelims s = []
  · rw [zmlToken_eof h, zmlToken_eof (hs ▸ h)]
  · cases hg' : getToken s with
    | none => rw [zmlToken_none h hg', zmlToken_none (hs ▸ h) (hg ▸ hg')]
    | some r => rw [zmlToken_some h hg', zmlToken_some (hs ▸ h) (hg ▸ hg')]

theorem zmlToken_delim {c : Char} (h : isDelim c = true) (s : Str) : zmlToken (c :: s) = zmlToken s :=
  zmlToken_congr (by simp [skipDelims, h])

theorem lexAll_tok {s t r : Str} (h : zmlToken s = .tok t r) : lexAll s = (t :: (lexAll r).1, (lexAll r).2) := by
  rw [lexAll.eq_def]
  split <;> simp_all

theorem lexAll_eof {s : Str} (h : zmlToken s = .eof) : lexAll s = ([], .eof) := by
  rw [lexAll.eq_def]
  split <;> simp_all

theorem lexAll_congr {s s' : Str} (h : zmlToken s = zmlToken s') : lexAll s = lexAll s' := by
  rw [lexAll.eq_def, lexAll.eq_def s']
  split <;> split <;> simp_all

/-- The operators that begin comments are tokens wherever they stand. -/
theorem getToken_op {c : Char} {op s : Str} (hd : isDelim c = false) (hq : isQuote c = false)
    (h : checkOperator (c :: s) = some op) : getToken (c :: s) = some (op, (c :: s).drop op.length) := by
  have hs : skipDelims (c :: s) = c :: s := by simp [skipDelims, hd]
  unfold getToken
  rw [hs, tokLoop.eq_def]
  simp only [hd, hq, Bool.false_eq_true, if_false, h, List.isEmpty_nil, Bool.and_self, if_true]

theorem zmlToken_line {op s : Str} {c : Char} (hd : isDelim c = false) (hq : isQuote c = false)
    (h : checkOperator (c :: s) = some op) (ho : op = ['#'] ∨ op = ['/', '/']) :
    zmlToken (c :: s) = zmlToken (skipLine ((c :: s).drop op.length)) := by
  have hg := getToken_op hd hq h
  rw [zmlToken_some (by simp [skipDelims, hd]) hg, afterToken, if_pos ho]

theorem skipLine_body {body : Str} (h : ∀ c ∈ body, c ≠ '\n' ∧ c ≠ '\r' ∧ c ≠ Char.ofNat 0) {e : Char} (he : e = '\n' ∨ e = '\r')
    (s : Str) : skipLine (body ++ e :: s) = e :: s := by
  induction body with
  | nil => rcases he with rfl | rfl <;> simp [skipLine]
  | cons c body ih =>
    have hc := h c (by simp)
    have := ih (fun x hx => h x (by simp [hx]))
    unfold skipLine at this ⊢
    rw [List.cons_append, List.dropWhile_cons_of_pos (by simp [hc])]
    exact this

theorem findFrom_end {s : Str} (hs : ∀ x y, s ++ ['*'] ≠ x ++ '*' :: '/' :: y) (r : Str) (k : Nat) :
    findFrom ['*', '/'] (s ++ '*' :: '/' :: r) k = some (k + s.length) := by
  induction s generalizing k with
  | nil => simp [findFrom]
  | cons c s ih =>
    have h2 : ∀ x y, s ++ ['*'] ≠ x ++ '*' :: '/' :: y := by
      intro x y e
      exact hs (c :: x) y (by simp [e])
    rw [List.cons_append, findFrom, if_neg, ih h2]
    · simp only [List.length_cons]; congr 1; omega
    · intro e
      rw [List.isPrefixOf_iff_prefix] at e
      obtain ⟨u, hu⟩ := e
      cases s with
      | nil =>
        simp only [List.nil_append, List.cons_append] at hu
        simp at hu
      | cons d s =>
        simp only [List.cons_append, List.nil_append, List.cons.injEq] at hu
        obtain ⟨rfl, rfl, _⟩ := hu
        exact hs [] (s ++ ['*']) (by simp)

theorem cstr_append {a b : Str} (h : ∀ c ∈ a, c ≠ Char.ofNat 0) : cstr (a ++ b) = a ++ cstr b := by
  unfold cstr
  rw [List.takeWhile_append_of_pos (by simpa using h)]

theorem seekPast_block {body : Str} (h0 : ∀ c ∈ body, c ≠ Char.ofNat 0)
    (h : ∀ x y, body ++ ['*'] ≠ x ++ '*' :: '/' :: y) (s : Str) : seekPast (body ++ '*' :: '/' :: s) = some s := by
  have hc : cstr (body ++ '*' :: '/' :: s) = body ++ '*' :: '/' :: cstr s := by
    rw [cstr_append h0]
    congr 1
  unfold seekPast strFind
  rw [hc, if_neg (by simp), List.drop_zero, findFrom_end h]
  simp only [Nat.zero_add, Option.map_some]
  congr 1
  rw [List.drop_append]
  simp

/-- **C22.** Separators in front of a token, or at the end of the text, are skipped. -/
theorem C22_leading {g : Str} (hg : Gap g) (s : Str) : lexAll (g ++ s) = lexAll s := by
  apply lexAll_congr
  induction hg with
  | nil => rfl
  | blank hc _ ih => rw [List.cons_append, zmlToken_delim (isDelim_blank hc), ih]
  | @hash body g e hb he _ ih =>
    rw [List.cons_append, List.append_assoc, List.cons_append,
      zmlToken_line (op := ['#']) (by decide) (by decide) (by simp [checkOperator, operators]) (by simp)]
    simp only [List.length_cons, List.length_nil, List.drop_succ_cons, List.drop_zero]
    rw [skipLine_body hb he, zmlToken_delim (by rcases he with rfl | rfl <;> decide), ih]
  | @slashes body g e hb he _ ih =>
    rw [List.cons_append, List.cons_append, List.append_assoc, List.cons_append,
      zmlToken_line (op := ['/', '/']) (by decide) (by decide) (by simp [checkOperator, operators]) (by simp)]
    simp only [List.length_cons, List.length_nil, List.drop_succ_cons, List.drop_zero]
    rw [skipLine_body hb he, zmlToken_delim (by rcases he with rfl | rfl <;> decide), ih]
  | @block body g h0 hb _ ih =>
    rw [List.cons_append, List.cons_append, List.append_assoc, List.cons_append, List.cons_append,
      zmlToken_some (by simp [skipDelims, isDelim]) (getToken_op (op := ['/', '*']) (by decide) (by decide)
        (by simp [checkOperator, operators]))]
    simp only [List.length_cons, List.length_nil, List.drop_succ_cons, List.drop_zero]
    rw [afterToken, if_neg (by decide), if_pos rfl, seekPast_block h0 hb]
    exact ih

/-! ### Separators behind a token -/

theorem readOct_local {p b y : Str} : ∀ (f v : Nat), (readOct f v (p ++ b)).2 < p.length →
    readOct f v (p ++ y) = readOct f v (p ++ b) := by
  induction p with
  | nil => intro f v h; simp at h
  | cons c p ih =>
    intro f v h
    cases f with
    | zero => rfl
    | succ f =>
      simp only [List.cons_append, readOct] at h ⊢
      split
      · next hc =>
        rw [if_pos hc] at h
        simp only [List.length_cons, Nat.add_lt_add_iff_right] at h
        rw [ih f _ h]
      · rfl

theorem decodeChar_local {p b y : Str} {x : Char} {len : Nat} (h : decodeChar (p ++ b) = .ok (x, len)) (h1 : len < p.length)
    (h0 : len ≠ 0) : decodeChar (p ++ y) = .ok (x, len) := by
  cases p with
  | nil => simp at h1
  | cons c p =>
    cases p with
    | nil => simp only [List.length_cons, List.length_nil] at h1; omega
    | cons d p =>
      rw [← h]
      simp only [List.cons_append, decodeChar] at h ⊢
      split_ifs at h ⊢ <;> try rfl
      all_goals
        simp only [Res.ok.injEq, Prod.mk.injEq] at h
        have h2 : (readOct 3 0 (d :: (p ++ b))).2 < (d :: p).length := by
          simp only [List.length_cons] at h1 ⊢; omega
        have := readOct_local (p := d :: p) (b := b) (y := y) 3 0 h2
        simp only [List.cons_append] at this
        simp_all

theorem quoteLoop_lt {q : Char} {acc t r : Str} {c : Char} {cs : Str} (h : quoteLoop q acc (c :: cs) = some (t, r)) :
    r.length ≤ cs.length := by
  unfold quoteLoop at h
  split at h
  · cases h; exact Nat.le_refl _
  · split at h
    · split at h
      · next x len _ =>
        split at h
        · cases h
        · have := quoteLoop_le h
          simp only [List.length_drop, List.length_cons] at this
          omega
      · cases h
    · exact quoteLoop_le h

theorem quoteLoop_prefix {q : Char} {acc s t r : Str} (h : quoteLoop q acc s = some (t, r)) : acc <+: t := by
  induction hn : s.length using Nat.strongRecOn generalizing acc s with
  | ind n ih =>
    subst hn
    unfold quoteLoop at h
    split at h
    · cases h; exact List.prefix_append _ _
    · next c cs =>
      split at h
      · cases h; exact List.prefix_refl _
      · split at h
        · split at h
          · next x len _ =>
            split at h
            · cases h
            · next hl =>
              have hlt : ((c :: cs).drop len).length < (c :: cs).length := by
                simp only [List.length_drop, List.length_cons]; omega
              exact (List.prefix_append _ _).trans (ih _ hlt h rfl)
          · cases h
        · exact (List.prefix_append _ _).trans (ih cs.length (by simp) h rfl)

/-- A quotation that is closed in front of `b` does not depend on `b`. -/
theorem quoteLoop_local {q : Char} {acc u b t w : Str} (y : Str) (h : quoteLoop q acc (u ++ b) = some (t, w ++ b))
    (h0 : Char.ofNat 0 ∉ t) : quoteLoop q acc (u ++ y) = some (t, w ++ y) := by
  induction hn : u.length using Nat.strongRecOn generalizing acc u with
  | ind n ih =>
    subst hn
    cases u with
    | nil =>
      rw [List.nil_append] at h
      cases b with
      | nil =>
        rw [quoteLoop.eq_def] at h
        simp only [Option.some.injEq, Prod.mk.injEq] at h
        exact absurd (by rw [← h.1]; simp) h0
      | cons c cs =>
        have := quoteLoop_lt h
        simp only [List.length_append, List.length_cons] at this
        omega
    | cons c u =>
      rw [quoteLoop.eq_def] at h ⊢
      simp only [List.cons_append] at h ⊢
      split
      · next hc =>
        rw [if_pos hc] at h
        simp only [Option.some.injEq, Prod.mk.injEq] at h ⊢
        refine ⟨h.1, ?_⟩
        rw [List.append_cancel_right h.2]
      · next hc =>
        rw [if_neg hc] at h
        split
        · next hb =>
          rw [if_pos hb] at h
          obtain ⟨x, len, hd⟩ := decodeChar_ok c (u ++ b)
          simp only [hd] at h
          split at h
          · cases h
          · next hl =>
            -- the escape ends in front of `b`
            have h1 : len < (c :: u).length := by
              by_contra hlen
              have hdrop : (c :: (u ++ b)).drop len = b.drop (len - (c :: u).length) := by
                rw [← List.cons_append, List.drop_append, List.drop_eq_nil_of_le (by omega), List.nil_append]
              rw [hdrop] at h
              cases hbd : b.drop (len - (c :: u).length) with
              | nil =>
                rw [hbd, quoteLoop.eq_def] at h
                simp only [Option.some.injEq, Prod.mk.injEq] at h
                exact absurd (by rw [← h.1]; simp) h0
              | cons d ds =>
                rw [hbd] at h
                have h2 := quoteLoop_lt h
                have h3 : (d :: ds).length ≤ b.length := by rw [← hbd, List.length_drop]; omega
                simp only [List.length_append, List.length_cons] at h2 h3
                omega
            have hd2 := decodeChar_local (p := c :: u) (b := b) (y := y) hd h1 hl
            simp only [List.cons_append] at hd2
            simp only [hd2, dif_neg hl]
            have e1 : (c :: (u ++ b)).drop len = (c :: u).drop len ++ b := by
              rw [← List.cons_append, List.drop_append_of_le_length (by omega)]
            have e2 : (c :: (u ++ y)).drop len = (c :: u).drop len ++ y := by
              rw [← List.cons_append, List.drop_append_of_le_length (by omega)]
            rw [e1] at h
            rw [e2]
            exact ih _ (by simp only [List.length_drop, List.length_cons]; omega) h rfl
        · next hb =>
          rw [if_neg hb] at h
          exact ih u.length (by simp) h rfl

theorem checkOperator_two (c d : Char) (s s' : Str) : checkOperator (c :: d :: s) = checkOperator (c :: d :: s') := by
  simp [checkOperator, operators, List.find?, List.isPrefixOf]

/-- A blank completes an operator only after a colon. -/
theorem checkOperator_blank {c g : Char} {b y : Str} (hg : Blank g) (hc : ¬ (c = ':' ∧ g = ' '))
    (h : checkOperator (c :: b) = none ∨ (checkOperator (c :: b)).map List.length = some 1) :
    checkOperator (c :: g :: y) = checkOperator (c :: b) := by
  have hgg : g ≠ '<' ∧ g ≠ '>' ∧ g ≠ '/' ∧ g ≠ '*' := by
    rcases hg with rfl | rfl | rfl | rfl | rfl <;> decide
  obtain ⟨g1, g2, g3, g4⟩ := hgg
  unfold checkOperator at h ⊢
  simp only [operators, List.find?, List.isPrefixOf, Bool.and_true] at h ⊢
  have e1 : ((':' == c) && (' ' == g)) = false := by
    by_cases x : c = ':'
    · by_cases z : g = ' '
      · exact absurd ⟨x, z⟩ hc
      · simp [Ne.symm z]
    · simp [Ne.symm x]
  simp only [e1, beq_eq_false_iff_ne.2 (Ne.symm g1), beq_eq_false_iff_ne.2 (Ne.symm g2), beq_eq_false_iff_ne.2 (Ne.symm g3),
    beq_eq_false_iff_ne.2 (Ne.symm g4), Bool.and_false]
  cases b with
  | nil => simp only [List.isPrefixOf, Bool.and_false]
  | cons d b =>
    simp only [List.isPrefixOf, Bool.and_true] at h ⊢
    repeat' split at h
    all_goals first
      | (rcases h with h | h <;> simp at h)
      | skip
    all_goals simp_all

theorem tokLoop_prefix {acc pend s t r : Str} (ha : acc ≠ []) (h : tokLoop acc pend s = some (t, r)) : acc <+: t := by
  induction hn : s.length using Nat.strongRecOn generalizing acc pend s with
  | ind n ih =>
    subst hn
    unfold tokLoop at h
    split at h
    · cases h; exact List.prefix_append _ _
    · next c cs =>
      split at h
      · cases h; exact List.prefix_append _ _
      · split at h
        · split at h
          · next acc' s' hq =>
            have h1 := quoteLoop_le hq
            have h2 := quoteLoop_prefix hq
            have h3 : acc' ≠ [] := by
              rintro rfl
              exact ha (List.prefix_nil.1 h2)
            exact h2.trans (ih s'.length (by simp only [List.length_cons]; omega) h3 h rfl)
          · cases h
        · split at h
          · rw [if_neg (by simp [ha])] at h
            cases h; exact List.prefix_append _ _
          · exact ih cs.length (by simp) ha h rfl

theorem tokLoop_quote {q : Char} {acc pend cs : Str} (hd : isDelim q = false) (hq : isQuote q = true) :
    tokLoop acc pend (q :: cs) = (quoteLoop q acc cs).bind fun r => tokLoop r.1 [] r.2 := by
  rw [tokLoop.eq_def]
  simp only [hd, hq, Bool.false_eq_true, if_false, if_true]
  split
  · next e => rw [e]; rfl
  · next e => rw [e]; rfl

/-- A token that ends in front of `b` is read the same when blanks follow. -/
theorem tokLoop_local {acc pend u b t w : Str} {g : Char} {y : Str} (hg : Blank g)
    (h : tokLoop acc pend (u ++ b) = some (t, w ++ b)) (h0 : Char.ofNat 0 ∉ t)
    (hw : ∀ c, w = [c] → (checkOperator (c :: b)).map List.length ≠ some 2)
    (hc : ¬ (u.getLast? = some ':' ∧ g = ' ')) :
    tokLoop acc pend (u ++ g :: y) = some (t, w ++ g :: y) := by
  induction hn : u.length using Nat.strongRecOn generalizing acc pend u with
  | ind n ih =>
    subst hn
    cases u with
    | nil =>
      rw [List.nil_append] at h
      have hle := tokLoop_le h
      have hw0 : w = [] := by
        have : w.length = 0 := by simp only [List.length_append] at hle; omega
        exact List.length_eq_zero_iff.1 this
      subst hw0
      have ht : t = acc ++ pend := by
        rw [tokLoop.eq_def] at h
        cases b with
        | nil => simp only [List.append_nil, Option.some.injEq, Prod.mk.injEq] at h; exact h.1.symm
        | cons c cs =>
          simp only at h
          split at h
          · simp only [List.nil_append, Option.some.injEq, Prod.mk.injEq] at h; exact h.1.symm
          · split at h
            · split at h
              · next acc' s' hq =>
                have h1 := quoteLoop_le hq
                have h2 := tokLoop_le h
                simp only [List.nil_append, List.length_cons] at h2
                omega
              · cases h
            · split at h
              · next op hop =>
                split at h
                · simp only [List.nil_append, Option.some.injEq, Prod.mk.injEq] at h
                  have h2 := checkOperator_some hop
                  have h3 := congrArg List.length h.2
                  simp only [List.length_drop, List.length_cons] at h3
                  omega
                · simp only [List.nil_append, Option.some.injEq, Prod.mk.injEq] at h; exact h.1.symm
              · have h2 := tokLoop_le h
                simp only [List.nil_append, List.length_cons] at h2
                omega
      simp only [List.nil_append]
      rw [tokLoop.eq_def]
      simp only [isDelim_blank hg, if_true, ht]
    | cons c u =>
      have hlast : u ≠ [] → (c :: u).getLast? = u.getLast? := fun hu => by
        rw [List.getLast?_cons]
        cases u with
        | nil => exact absurd rfl hu
        | cons d u => simp [List.getLast?_cons]
      have hc' : ¬ (u.getLast? = some ':' ∧ g = ' ') := by
        rintro ⟨h1, h2⟩
        apply hc
        refine ⟨?_, h2⟩
        rw [hlast (by rintro rfl; cases h1), h1]
      by_cases hd : isDelim c = true
      · rw [tokLoop.eq_def] at h ⊢
        simp only [List.cons_append, hd, if_true, Option.some.injEq, Prod.mk.injEq] at h ⊢
        refine ⟨h.1, ?_⟩
        have := List.append_cancel_right (show (c :: u) ++ b = w ++ b from h.2)
        rw [← this]; rfl
      · have hd : isDelim c = false := by simpa using hd
        by_cases hq : isQuote c = true
        · rw [List.cons_append, tokLoop_quote hd hq] at h ⊢
          cases hql : quoteLoop c acc (u ++ b) with
          | none => rw [hql] at h; cases h
          | some r =>
            obtain ⟨acc', s'⟩ := r
            rw [hql] at h
            simp only [Option.bind_some] at h
            -- the text behind the quotation still ends with `b`
            have hsuf := quoteLoop_suffix hql
            have hle := tokLoop_le h
            have hsb : b <:+ s' := by
              apply List.suffix_of_suffix_length_le (List.suffix_append u b) hsuf
              simp only [List.length_append] at hle; omega
            obtain ⟨u', rfl⟩ := hsb
            have hu'' : u' <:+ u := by
              obtain ⟨z, hz⟩ := hsuf
              rw [← List.append_assoc] at hz
              exact ⟨z, List.append_cancel_right hz⟩
            have h0' : Char.ofNat 0 ∉ acc' := by
              by_cases ha : acc' = []
              · rw [ha]; simp
              · obtain ⟨z, hz⟩ := tokLoop_prefix ha h
                intro hm
                exact h0 (by rw [← hz]; simp [hm])
            rw [quoteLoop_local (g :: y) hql h0']
            simp only [Option.bind_some]
            refine ih u'.length ?_ h ?_ rfl
            · have := hu''.length_le
              simp only [List.length_cons]; omega
            · rintro ⟨h1, h2⟩
              apply hc'
              refine ⟨?_, h2⟩
              rw [last_of_suffix hu'' (by rintro rfl; cases h1), h1]
        · have hq : isQuote c = false := by simpa using hq
          -- operators
          have hop : checkOperator (c :: (u ++ g :: y)) = checkOperator (c :: (u ++ b)) := by
            cases u with
            | cons d u => exact checkOperator_two _ _ _ _
            | nil =>
              refine checkOperator_blank hg ?_ ?_
              · rintro ⟨rfl, hx⟩
                exact hc ⟨rfl, hx⟩
              · rw [tokLoop.eq_def] at h
                simp only [List.cons_append, List.nil_append, hd, hq, Bool.false_eq_true, if_false] at h
                cases hop : checkOperator (c :: b) with
                | none => left; exact hop
                | some op =>
                  right
                  simp only [hop] at h
                  have hp := checkOperator_some hop
                  have hlen : op.length = 1 ∨ op.length = 2 := by
                    have hm := List.mem_of_find?_eq_some hop
                    revert hm
                    simp only [operators, List.mem_cons, List.not_mem_nil, or_false]
                    rintro (rfl | rfl | rfl | rfl | rfl | rfl | rfl | rfl | rfl | rfl | rfl | rfl) <;> simp
                  rcases hlen with hl | hl
                  · simp [hop, hl]
                  · exfalso
                    split at h
                    · simp only [Option.some.injEq, Prod.mk.injEq] at h
                      have h3 := congrArg List.length h.2
                      have h4 := hp.1.length_le
                      simp only [List.length_drop, List.length_cons, List.length_append] at h3 h4
                      omega
                    · simp only [Option.some.injEq, Prod.mk.injEq] at h
                      have := List.append_cancel_right (show [c] ++ b = w ++ b from h.2)
                      exact hw c this.symm (by rw [hop]; simp [hl])
          rw [tokLoop.eq_def] at h ⊢
          simp only [List.cons_append, hd, hq, Bool.false_eq_true, if_false, hop] at h ⊢
          cases hop2 : checkOperator (c :: (u ++ b)) with
          | none =>
            simp only [hop2] at h ⊢
            exact ih u.length (by simp) h hc' rfl
          | some op =>
            simp only [hop2] at h ⊢
            split at h
            · next he =>
              simp only [Option.some.injEq, Prod.mk.injEq] at h
              have hlen : op.length ≤ (c :: u).length := by
                have h3 := congrArg List.length h.2
                have hp := checkOperator_some hop2
                have h4 := hp.1.length_le
                simp only [List.length_drop, List.length_cons, List.length_append] at h3 h4 ⊢
                omega
              have e1 : (c :: (u ++ b)).drop op.length = (c :: u).drop op.length ++ b := by
                rw [← List.cons_append, List.drop_append_of_le_length hlen]
              have e2 : (c :: (u ++ g :: y)).drop op.length = (c :: u).drop op.length ++ g :: y := by
                rw [← List.cons_append, List.drop_append_of_le_length hlen]
              rw [if_pos he, e2]
              rw [e1] at h
              simp only [Option.some.injEq, Prod.mk.injEq]
              exact ⟨h.1, by rw [List.append_cancel_right h.2]⟩
            · next he =>
              simp only [Option.some.injEq, Prod.mk.injEq] at h
              rw [if_neg he]
              simp only [Option.some.injEq, Prod.mk.injEq]
              refine ⟨h.1, ?_⟩
              have := List.append_cancel_right (show (c :: u) ++ b = w ++ b from h.2)
              rw [← this]; rfl

theorem skipDelims_append {u b : Str} (h : skipDelims u ≠ []) : skipDelims (u ++ b) = skipDelims u ++ b := by
  induction u with
  | nil => exact absurd rfl h
  | cons c u ih =>
    unfold skipDelims at *
    by_cases hc : isDelim c = true
    · rw [List.dropWhile_cons_of_pos hc] at h
      rw [List.cons_append, List.dropWhile_cons_of_pos hc, List.dropWhile_cons_of_pos hc, ih h]
    · rw [List.cons_append, List.dropWhile_cons_of_neg hc, List.dropWhile_cons_of_neg hc, List.cons_append]

theorem skipDelims_all {u b : Str} (h : skipDelims u = []) : skipDelims (u ++ b) = skipDelims b := by
  induction u with
  | nil => rfl
  | cons c u ih =>
    unfold skipDelims at *
    by_cases hc : isDelim c = true
    · rw [List.dropWhile_cons_of_pos hc] at h
      rw [List.cons_append, List.dropWhile_cons_of_pos hc, ih h]
    · rw [List.dropWhile_cons_of_neg hc] at h
      cases h

theorem skipLine_local {u b w : Str} (y : Str) (h : skipLine (u ++ b) = w ++ b) (hw : w ≠ []) :
    skipLine (u ++ y) = w ++ y := by
  induction u with
  | nil =>
    have := skipLine_le b
    rw [List.nil_append] at h
    rw [h, List.length_append] at this
    exact absurd (List.length_eq_zero_iff.1 (by omega)) hw
  | cons c u ih =>
    unfold skipLine at *
    generalize (fun c : Char => decide (c ≠ '\r') && decide (c ≠ '\n') && decide (c ≠ Char.ofNat 0)) = q at *
    by_cases hc : q c = true
    · rw [List.cons_append, List.dropWhile_cons_of_pos hc] at h ⊢
      exact ih h
    · rw [List.cons_append, List.dropWhile_cons_of_neg hc] at h ⊢
      rw [← List.append_cancel_right (show (c :: u) ++ b = w ++ b from h)]
      rfl

theorem findFrom_local {u b y : Str} {k i : Nat} (h : findFrom ['*', '/'] (cstr (u ++ b)) k = some (k + i))
    (hi : i + 2 ≤ u.length) : findFrom ['*', '/'] (cstr (u ++ y)) k = some (k + i) := by
  induction u generalizing k i with
  | nil => simp at hi
  | cons c u ih =>
    by_cases hc : c = Char.ofNat 0
    · subst hc
      simp [cstr, findFrom] at h
    · have e : ∀ z : Str, cstr (c :: z) = c :: cstr z := fun z => by simp [cstr, hc]
      rw [List.cons_append, e] at h ⊢
      rw [findFrom] at h ⊢
      have hpre : List.isPrefixOf ['*', '/'] (c :: cstr (u ++ y)) = List.isPrefixOf ['*', '/'] (c :: cstr (u ++ b)) := by
        cases u with
        | nil => simp only [List.length_cons, List.length_nil] at hi; omega
        | cons d u =>
          by_cases hd : d = Char.ofNat 0
          · subst hd; simp [cstr, List.isPrefixOf]
          · have e2 : ∀ z : Str, cstr (d :: z) = d :: cstr z := fun z => by simp [cstr, hd]
            simp only [List.cons_append, e2, List.isPrefixOf]
      rw [hpre]
      split
      · next hp => rw [if_pos hp] at h; exact h
      · next hp =>
        rw [if_neg hp] at h
        cases i with
        | zero =>
          exfalso
          have hge : ∀ (z : Str) (k m : Nat), findFrom ['*', '/'] z k = some m → k ≤ m := by
            intro z
            induction z with
            | nil => intro k m hm; simp [findFrom, List.isPrefixOf] at hm
            | cons d z ihz =>
              intro k m hm
              rw [findFrom] at hm
              split at hm
              · cases hm; exact Nat.le_refl _
              · have := ihz _ _ hm; omega
          have := hge _ _ _ h
          omega
        | succ i =>
          have hk : k + (i + 1) = k + 1 + i := by omega
          rw [hk] at h ⊢
          exact ih h (by simp only [List.length_cons] at hi; omega)

theorem seekPast_local {u b w : Str} (y : Str) (h : seekPast (u ++ b) = some (w ++ b)) :
    seekPast (u ++ y) = some (w ++ y) ∧ 2 ≤ u.length := by
  unfold seekPast strFind at h ⊢
  simp only [Nat.not_lt_zero, gt_iff_lt, if_false, List.drop_zero] at h ⊢
  cases hf : findFrom ['*', '/'] (cstr (u ++ b)) 0 with
  | none => rw [hf] at h; cases h
  | some i =>
    rw [hf] at h
    simp only [Option.map_some, Option.some.injEq] at h
    -- the match ends inside the text
    have hend : ∀ (z : Str) (k m : Nat), findFrom ['*', '/'] z k = some m → m + 2 ≤ k + z.length := by
      intro z
      induction z with
      | nil => intro k m hm; simp [findFrom, List.isPrefixOf] at hm
      | cons d z ihz =>
        intro k m hm
        rw [findFrom] at hm
        split at hm
        · next hp =>
          cases hm
          have := (List.isPrefixOf_iff_prefix.1 hp).length_le
          simp only [List.length_cons, List.length_nil] at this ⊢
          omega
        · have := ihz _ _ hm
          simp only [List.length_cons]; omega
    have h1 := hend _ _ _ hf
    have h2 : (cstr (u ++ b)).length ≤ (u ++ b).length := (List.takeWhile_prefix _).length_le
    have h3 := congrArg List.length h
    simp only [List.length_drop, List.length_append] at h1 h2 h3
    have hi : i + 2 ≤ u.length := by omega
    rw [findFrom_local (k := 0) (i := i) (y := y) (by simpa using hf) hi]
    refine ⟨?_, by omega⟩
    simp only [Option.map_some, Option.some.injEq, Nat.zero_add]
    rw [List.drop_append_of_le_length hi] at h ⊢
    rw [List.append_cancel_right h]

theorem zmlToken_local {u b t w : Str} {g : Char} {y : Str} (hg : Blank g)
    (h : zmlToken (u ++ b) = .tok t (w ++ b)) (h0 : Char.ofNat 0 ∉ t)
    (hw : ∀ c, w = [c] → (checkOperator (c :: b)).map List.length ≠ some 2)
    (hc : ¬ (u.getLast? = some ':' ∧ g = ' ')) :
    zmlToken (u ++ g :: y) = .tok t (w ++ g :: y) := by
  induction hn : u.length using Nat.strongRecOn generalizing u with
  | ind n ih =>
    subst hn
    by_cases hs : skipDelims u = []
    · -- the token would begin behind the boundary
      exfalso
      rw [zmlToken_congr (skipDelims_all hs)] at h
      have := zmlToken_lt h
      simp only [List.length_append] at this
      omega
    · have hsb := skipDelims_append (b := b) hs
      have hsy := skipDelims_append (b := g :: y) hs
      have hnb : skipDelims (u ++ b) ≠ [] := by rw [hsb]; simp [hs]
      have hny : skipDelims (u ++ g :: y) ≠ [] := by rw [hsy]; simp [hs]
      have hlast : (skipDelims u).getLast? = u.getLast? :=
        (last_of_suffix (List.dropWhile_suffix _ : skipDelims u <:+ u) hs).symm
      cases hg1 : getToken (u ++ b) with
      | none => rw [zmlToken_none hnb hg1] at h; cases h
      | some r =>
        obtain ⟨t1, r1⟩ := r
        rw [zmlToken_some hnb hg1] at h
        have hlt1 := getToken_lt hnb hg1
        have hsuf1 := getToken_suffix hg1
        -- what is left behind this token still contains `b`
        have hkey : ∀ {s : Str}, s <:+ r1 → b.length ≤ s.length → ∃ v, s = v ++ b ∧ v <:+ u := by
          intro s hs1 hs2
          have h1 : s <:+ u ++ b := hs1.trans hsuf1
          obtain ⟨v, rfl⟩ := List.suffix_of_suffix_length_le (List.suffix_append u b) h1 hs2
          refine ⟨v, rfl, ?_⟩
          obtain ⟨z, hz⟩ := h1
          rw [← List.append_assoc] at hz
          exact ⟨z, List.append_cancel_right hz⟩
        have hlastv : ∀ {v : Str}, v <:+ u → ¬ (v.getLast? = some ':' ∧ g = ' ') := by
          rintro v hv ⟨h1, h2⟩
          apply hc
          refine ⟨?_, h2⟩
          rw [last_of_suffix hv (by rintro rfl; cases h1), h1]
        -- reading the token in front of the new text
        have step : ∀ {v : Str}, r1 = v ++ b → Char.ofNat 0 ∉ t1 →
            (∀ c, v = [c] → (checkOperator (c :: b)).map List.length ≠ some 2) →
            getToken (u ++ g :: y) = some (t1, v ++ g :: y) := by
          intro v hv h01 hwv
          unfold getToken at hg1 ⊢
          rw [hsb, hv] at hg1
          rw [hsy]
          exact tokLoop_local hg hg1 h01 hwv (by rw [hlast]; exact hc)
        unfold afterToken at h
        split at h
        · next hcm =>
          have hlt2 := zmlToken_lt h
          simp only [List.length_append] at hlt2
          obtain ⟨v2, hv2, hv2u⟩ := hkey (s := skipLine r1) (List.dropWhile_suffix _) (by omega)
          have hr1 : b.length ≤ r1.length := by
            have := skipLine_le r1; omega
          obtain ⟨v1, hv1, hv1u⟩ := hkey (List.suffix_refl r1) hr1
          have hv2ne : v2 ≠ [] := by
            rintro rfl
            rw [hv2] at hlt2
            simp only [List.nil_append] at hlt2
            omega
          have hst := step hv1 (by rcases hcm with rfl | rfl <;> decide) (by
            rintro c rfl
            -- the line ends in front of `b`
            have hcc : c = '\r' ∨ c = '\n' ∨ c = Char.ofNat 0 := by
              by_contra hno
              rw [not_or, not_or] at hno
              rw [hv1, List.cons_append, List.nil_append] at hv2
              have e : skipLine (c :: b) = skipLine b := by
                unfold skipLine
                rw [List.dropWhile_cons_of_pos (by simp [hno])]
              rw [e] at hv2
              have h5 := skipLine_le b
              rw [hv2, List.length_append] at h5
              exact hv2ne (List.length_eq_zero_iff.1 (by omega))
            rcases hcc with rfl | rfl | rfl <;> simp [checkOperator, operators])
          rw [zmlToken_some hny hst, afterToken, if_pos hcm]
          rw [hv2] at h
          rw [hv1] at hv2
          rw [skipLine_local (g :: y) hv2 hv2ne]
          refine ih v2.length ?_ h (hlastv hv2u) rfl
          have h5 := skipLine_le r1
          rw [hv1, hv2] at h5
          rw [hv1] at hlt1
          simp only [List.length_append] at h5 hlt1
          omega
        · next hcm =>
          split at h
          · next hcb =>
            cases hsk : seekPast r1 with
            | none => rw [hsk] at h; cases h
            | some r2 =>
              rw [hsk] at h
              simp only at h
              have hlt2 := zmlToken_lt h
              simp only [List.length_append] at hlt2
              obtain ⟨v2, hv2, hv2u⟩ := hkey (seekPast_suffix hsk) (by omega)
              have hle2 := seekPast_le hsk
              obtain ⟨v1, hv1, hv1u⟩ := hkey (List.suffix_refl r1) (by omega)
              rw [hv1, hv2] at hsk
              have hloc := seekPast_local (g :: y) hsk
              have hst := step hv1 (by rw [hcb]; decide) (by
                rintro c rfl
                have := hloc.2
                simp at this)
              rw [zmlToken_some hny hst, afterToken, if_neg hcm, if_pos hcb, hloc.1]
              simp only
              rw [hv2] at h
              refine ih v2.length ?_ h (hlastv hv2u) rfl
              rw [hv1, hv2] at hle2
              rw [hv1] at hlt1
              simp only [List.length_append] at hle2 hlt1
              omega
          · next hcb =>
            simp only [Step.tok.injEq] at h
            obtain ⟨rfl, hr⟩ := h
            rw [zmlToken_some hny (step hr h0 hw), afterToken, if_neg hcm, if_neg hcb]

/-- Reading tokens from the beginning of `s`, one arrives in front of `b`. The tokens contain no NUL. (A token contains a NUL only if
the text has one, or ends inside a quotation.) -/
inductive Spec.Reaches : Str → Str → Prop
  | here (s : Str) : Reaches s s
  | step {s t r b : Str} : zmlToken s = .tok t r → Char.ofNat 0 ∉ t → Reaches r b → Reaches s b

theorem Reaches_suffix {s b : Str} (h : Reaches s b) : b <:+ s := by
  induction h with
  | here => exact List.suffix_refl _
  | step hz _ _ ih => exact ih.trans (zmlToken_suffix hz)

/-- **C22 (partial).** Inserting separators that begin with a blank at any boundary between tokens (or in front of the first one, or
behind the last one) leaves the tokens unchanged. Missing: a space directly behind a token that ends with a colon, see
`C22_colon_violated`; a comment directly behind a token, see `C22_comment_violated`; and texts that end inside a quotation,
which have no boundary there. -/
theorem C22_insert_tokens_partial {u b g : Str} {c : Char} (hr : Reaches (u ++ b) b) (hg : Gap (c :: g)) (hb : Blank c)
    (hc : ¬ (u.getLast? = some ':' ∧ c = ' ')) : lexAll (u ++ (c :: g) ++ b) = lexAll (u ++ b) := by
  generalize hs : u ++ b = s at hr
  induction hr generalizing u with
  | here s =>
    have : u = [] := by
      have := congrArg List.length hs
      simp only [List.length_append] at this
      exact List.length_eq_zero_iff.1 (by omega)
    subst this
    rw [← hs, List.nil_append, List.nil_append]
    exact C22_leading hg _
  | @step s t r b hz h0 hrest ih =>
    obtain ⟨w, rfl⟩ := Reaches_suffix hrest
    subst hs
    have hsuf := zmlToken_suffix hz
    have hwu : w <:+ u := by
      obtain ⟨z, hz'⟩ := hsuf
      rw [← List.append_assoc] at hz'
      exact ⟨z, List.append_cancel_right hz'⟩
    have hw : ∀ c, w = [c] → (checkOperator (c :: b)).map List.length ≠ some 2 := by
      rintro d rfl hop
      -- the operator would be read as one token
      rw [Option.map_eq_some_iff] at hop
      obtain ⟨op, hop, hol⟩ := hop
      cases hrest with
      | step hz2 _ hr2 =>
        have hle := (Reaches_suffix hr2).length_le
        have hdd : isDelim d = false ∧ isQuote d = false := by
          have hm := List.mem_of_find?_eq_some hop
          have hp := (checkOperator_some hop).1
          revert hm hp
          simp only [operators, List.mem_cons, List.not_mem_nil, or_false]
          rintro (rfl | rfl | rfl | rfl | rfl | rfl | rfl | rfl | rfl | rfl | rfl | rfl) <;>
            · rintro ⟨z, hz⟩
              simp only [List.cons_append, List.cons.injEq] at hz
              rw [← hz.1]
              decide
        have hg2 := getToken_op hdd.1 hdd.2 hop
        have hnb : skipDelims (d :: b) ≠ [] := by simp [skipDelims, hdd.1]
        rw [List.cons_append, List.nil_append, zmlToken_some hnb hg2] at hz2
        have hdl : ((d :: b).drop op.length).length < b.length := by
          have := (checkOperator_some hop).1.length_le
          simp only [List.length_drop, List.length_cons] at this ⊢
          omega
        unfold afterToken at hz2
        split at hz2
        · have h5 := zmlToken_lt hz2
          have h6 := skipLine_le ((d :: b).drop op.length)
          omega
        · split at hz2
          · split at hz2
            · next r' hsk =>
              have h5 := zmlToken_lt hz2
              have h6 := seekPast_le hsk
              omega
            · cases hz2
          · simp only [Step.tok.injEq] at hz2
            rw [hz2.2] at hdl
            omega
    have hz3 := zmlToken_local (y := g ++ b) hb hz h0 hw hc
    rw [show u ++ (c :: g) ++ b = u ++ c :: (g ++ b) by simp]
    rw [lexAll_tok hz3, lexAll_tok hz]
    have hi := ih (u := w) (by
      rintro ⟨h1, h2⟩
      apply hc
      refine ⟨?_, h2⟩
      rw [last_of_suffix hwu (by rintro rfl; cases h1), h1]) rfl
    rw [← hi]
    simp

/-- **C22 (partial).** The same for the tree that is read. -/
theorem C22_insert_partial (env : Env) {u b g : Str} {c : Char} (hr : Reaches (u ++ b) b) (hg : Gap (c :: g)) (hb : Blank c)
    (hc : ¬ (u.getLast? = some ':' ∧ c = ' ')) : parse env (u ++ (c :: g) ++ b) = parse env (u ++ b) := by
  unfold parse
  rw [C22_insert_tokens_partial hr hg hb hc]

/-- **C22.** Separators in front of a text do not change the tree that is read. -/
theorem C22_leading_parse (env : Env) {g : Str} (hg : Gap g) (s : Str) : parse env (g ++ s) = parse env s := by
  unfold parse
  rw [C22_leading hg]

/-- **C22 is violated** by a space behind a token that ends with a colon: `a = b:` followed by the end of the line is read, with a
space in front of the end of the line it is an error. -/
theorem C22_colon_violated :
    readsAs (parse ⟨true, fun _ => .err⟩ "a = b:\nc = 1".toList)
      (.mk [] [(['a'], .leaf ['b', ':']), (['c'], .leaf ['1'])] false) = true ∧
    reportsError (parse ⟨true, fun _ => .err⟩ "a = b: \nc = 1".toList) = true := by decide +kernel

/-- **C22 is violated** by a comment directly behind an empty quoted string, which disappears; and by a comment `//` directly behind a
token that ends with `/`. -/
theorem C22_comment_violated :
    readsAs (parse ⟨true, fun _ => .err⟩ "a = \"\"\nb = 1".toList)
      (.mk [] [(['a'], .leaf []), (['b'], .leaf ['1'])] false) = true ∧
    reportsError (parse ⟨true, fun _ => .err⟩ "a = \"\"# note\nb = 1".toList) = true ∧
    readsAs (parse ⟨true, fun _ => .err⟩ "a = x/\n".toList) (.mk [] [(['a'], .leaf ['x', '/'])] false) = true ∧
    readsAs (parse ⟨true, fun _ => .err⟩ "a = x///\n".toList) (.mk [] [(['a'], .leaf ['x'])] false) = true := by decide +kernel

/-- A text with a boundary in the middle and separators with comments of each kind. -/
example : Reaches ("a".toList ++ "= 1".toList) "= 1".toList ∧ Gap " # x\n//y\r/* z*\n*/".toList ∧ Blank ' ' := by
  refine ⟨.step (t := ['a']) (by decide +kernel) (by decide) (.here _), ?_, .inl rfl⟩
  refine .blank (.inl rfl) (.hash (body := " x".toList) (e := '\n') (by decide) (.inl rfl)
    (.slashes (body := "y".toList) (e := '\r') (by decide) (.inr rfl) (.block (body := " z*\n".toList) (by decide) ?_ .nil)))
  intro x y h
  rcases x with _ | ⟨_, _ | ⟨_, _ | ⟨_, _ | ⟨_, _ | ⟨_, _⟩⟩⟩⟩⟩ <;> simp at h

end Zml
end Xo
