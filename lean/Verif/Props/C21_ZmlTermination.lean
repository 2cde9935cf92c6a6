import Verif.Model.Zml
import Mathlib.Data.List.Basic

/-!
C21: reading any text as ZML terminates. It does, unless the text ends with a backslash inside a quotation.
-/
namespace Xo
namespace Zml

/-- The loop of char_stream.cpp:80-95 as it is written, cut off after `n` iterations (`none`). The state is the token and the text
from `cur_pos`. -/
def quoteIter (q : Char) : Nat → Str → Str → Option (Str × Str)
  | 0, _, _ => none
  | _ + 1, acc, [] => some (acc ++ [Char.ofNat 0], [])
  | n + 1, acc, c :: cs =>
    if c = q then some (acc, cs)
    else if c = '\\' then
      match decodeChar (c :: cs) with
      | .ok (x, len) => quoteIter q n (acc ++ [x]) ((c :: cs).drop len)
      | _ => none
    else quoteIter q n (acc ++ [c]) cs

theorem decodeChar_ok (c : Char) (cs : Str) : ∃ x len, decodeChar (c :: cs) = .ok (x, len) := by
  unfold decodeChar
  split
  · next h => cases h
  · exact ⟨_, _, rfl⟩
  · next c d rest _ =>
    split_ifs <;> exact ⟨_, _, rfl⟩

/-- `decode_char` on a backslash reports length 0 only when nothing follows. -/
theorem decodeChar_len {cs : Str} {x : Char} {len : Nat} (h : decodeChar ('\\' :: cs) = .ok (x, len)) :
    len = 0 ↔ cs = [] := by
  cases cs with
  | nil => simp [decodeChar] at h; simp [h.2.symm]
  | cons d rest =>
    simp only [reduceCtorEq, iff_false]
    unfold decodeChar at h
    simp only [ne_eq, not_true_eq_false, if_false] at h
    split_ifs at h <;> simp only [Res.ok.injEq, Prod.mk.injEq] at h <;> omega

/-- The loop leaves a state with a lone backslash unchanged except for the growing token. -/
theorem quoteIter_stuck (q : Char) (hq : q ≠ '\\') : ∀ (n : Nat) (acc : Str), quoteIter q n acc ['\\'] = none
  | 0, _ => rfl
  | n + 1, acc => by
    simp only [quoteIter, if_neg (Ne.symm hq), if_true, decodeChar, List.drop_zero]
    exact quoteIter_stuck q hq n _

/-- **C21.** The outcome `none` of the model of the quotation loop is non-termination, and the other outcomes are
termination: for every number of iterations. -/
theorem C21_quote_loop (q : Char) (hq : q ≠ '\\') (acc s : Str) (r : Str × Str) :
    (∃ n, quoteIter q n acc s = some r) ↔ quoteLoop q acc s = some r := by
  induction hn : s.length using Nat.strongRecOn generalizing acc s with
  | ind m ih =>
    subst hn
    cases s with
    | nil =>
      rw [quoteLoop.eq_def]
      constructor
      · rintro ⟨n, h⟩
        cases n with
        | zero => cases h
        | succ n => exact h
      · intro h; exact ⟨1, h⟩
    | cons c cs =>
      rw [quoteLoop.eq_def]
      simp only
      by_cases hc : c = q
      · rw [if_pos hc]
        constructor
        · rintro ⟨n, h⟩
          cases n with
          | zero => cases h
          | succ n => simpa [quoteIter, hc] using h
        · intro h; exact ⟨1, by simpa [quoteIter, hc] using h⟩
      · rw [if_neg hc]
        by_cases hb : c = '\\'
        · rw [if_pos hb]
          obtain ⟨x, len, hd⟩ := decodeChar_ok c cs
          simp only [hd]
          by_cases hl : len = 0
          · rw [dif_pos hl]
            subst hb
            have hcs := (decodeChar_len hd).1 hl
            subst hcs
            constructor
            · rintro ⟨n, h⟩; rw [quoteIter_stuck q hq] at h; cases h
            · intro h; cases h
          · rw [dif_neg hl]
            rw [← ih ((c :: cs).drop len).length (by simp only [List.length_drop, List.length_cons]; omega) _ _ rfl]
            constructor
            · rintro ⟨n, h⟩
              cases n with
              | zero => cases h
              | succ n => exact ⟨n, by simpa only [quoteIter, if_neg hc, if_pos hb, hd] using h⟩
            · rintro ⟨n, h⟩
              exact ⟨n + 1, by simpa only [quoteIter, if_neg hc, if_pos hb, hd] using h⟩
        · rw [if_neg hb]
          rw [← ih cs.length (by simp) _ _ rfl]
          constructor
          · rintro ⟨n, h⟩
            cases n with
            | zero => cases h
            | succ n => exact ⟨n, by simpa only [quoteIter, if_neg hc, if_neg hb] using h⟩
          · rintro ⟨n, h⟩
            exact ⟨n + 1, by simpa only [quoteIter, if_neg hc, if_neg hb] using h⟩

theorem quoteLoop_suffix {q : Char} {acc s t r : Str} (h : quoteLoop q acc s = some (t, r)) : r <:+ s := by
  induction hn : s.length using Nat.strongRecOn generalizing acc s with
  | ind n ih =>
    subst hn
    unfold quoteLoop at h
    split at h
    · cases h; exact List.suffix_refl _
    · next c cs =>
      split at h
      · cases h; exact List.suffix_cons _ _
      · split at h
        · split at h
          · next x len _ =>
            split at h
            · cases h
            · next hl =>
              have hlt : ((c :: cs).drop len).length < (c :: cs).length := by
                simp only [List.length_drop, List.length_cons]; omega
              exact (ih _ hlt h rfl).trans (List.drop_suffix _ _)
          · cases h
        · exact (ih cs.length (by simp) h rfl).trans (List.suffix_cons _ _)

theorem last_of_suffix {s r : Str} (h : r <:+ s) (hr : r ≠ []) : s.getLast? = r.getLast? := by
  obtain ⟨u, rfl⟩ := h
  exact List.getLast?_append_of_ne_nil u hr

theorem quoteLoop_none {q : Char} {acc s : Str} (h : quoteLoop q acc s = none) : s.getLast? = some '\\' := by
  induction hn : s.length using Nat.strongRecOn generalizing acc s with
  | ind n ih =>
    subst hn
    unfold quoteLoop at h
    split at h
    · cases h
    · next c cs =>
      split at h
      · cases h
      · split at h
        · next hb =>
          subst hb
          obtain ⟨x, len, hd⟩ := decodeChar_ok '\\' cs
          simp only [hd] at h
          split at h
          · next hl => rw [(decodeChar_len hd).1 hl]; rfl
          · next hl =>
            have hlt : (('\\' :: cs).drop len).length < ('\\' :: cs).length := by
              simp only [List.length_drop, List.length_cons]; omega
            have h2 := ih _ hlt h rfl
            have hne : ('\\' :: cs).drop len ≠ [] := by intro e; rw [e] at h2; cases h2
            rw [last_of_suffix (List.drop_suffix len _) hne]
            exact h2
        · have h2 := ih cs.length (by simp) h rfl
          have hne : cs ≠ [] := by rintro rfl; cases h2
          rw [last_of_suffix (List.suffix_cons c cs) hne]
          exact h2

theorem tokLoop_none {acc pend s : Str} (h : tokLoop acc pend s = none) : s.getLast? = some '\\' := by
  induction hn : s.length using Nat.strongRecOn generalizing acc pend s with
  | ind n ih =>
    subst hn
    unfold tokLoop at h
    split at h
    · cases h
    · next c cs =>
      split at h
      · cases h
      · split at h
        · split at h
          · next acc' s' hq =>
            have h1 := quoteLoop_le hq
            have h2 := ih s'.length (by simp only [List.length_cons]; omega) h rfl
            have hne : s' ≠ [] := by rintro rfl; cases h2
            rw [last_of_suffix ((quoteLoop_suffix hq).trans (List.suffix_cons c cs)) hne]
            exact h2
          · next hq =>
            have h2 := quoteLoop_none hq
            have hne : cs ≠ [] := by rintro rfl; cases h2
            rw [last_of_suffix (List.suffix_cons c cs) hne]
            exact h2
        · split at h
          · split at h <;> cases h
          · have h2 := ih cs.length (by simp) h rfl
            have hne : cs ≠ [] := by rintro rfl; cases h2
            rw [last_of_suffix (List.suffix_cons c cs) hne]
            exact h2

theorem tokLoop_suffix {acc pend s t r : Str} (h : tokLoop acc pend s = some (t, r)) : r <:+ s := by
  induction hn : s.length using Nat.strongRecOn generalizing acc pend s with
  | ind n ih =>
    subst hn
    unfold tokLoop at h
    split at h
    · cases h; exact List.suffix_refl _
    · next c cs =>
      split at h
      · cases h; exact List.suffix_refl _
      · split at h
        · split at h
          · next acc' s' hq =>
            have h1 := quoteLoop_le hq
            exact ((ih s'.length (by simp only [List.length_cons]; omega) h rfl).trans (quoteLoop_suffix hq)).trans
              (List.suffix_cons c cs)
          · cases h
        · split at h
          · split at h
            · cases h; exact List.drop_suffix _ _
            · cases h; exact List.suffix_refl _
          · exact (ih cs.length (by simp) h rfl).trans (List.suffix_cons c cs)

theorem getToken_suffix {s t r : Str} (h : getToken s = some (t, r)) : r <:+ s :=
  (tokLoop_suffix h).trans (List.dropWhile_suffix _)

theorem getToken_none {s : Str} (h : getToken s = none) : s.getLast? = some '\\' := by
  have h2 := tokLoop_none h
  have hne : skipDelims s ≠ [] := by intro e; rw [e] at h2; cases h2
  rw [last_of_suffix (List.dropWhile_suffix _) hne]
  exact h2

theorem seekPast_suffix {s r : Str} (h : seekPast s = some r) : r <:+ s := by
  unfold seekPast at h
  cases hf : strFind (cstr s) ['*', '/'] 0 with
  | none => rw [hf] at h; cases h
  | some i =>
    rw [hf] at h
    simp only [Option.map_some, Option.some.injEq] at h
    rw [← h]; exact List.drop_suffix _ _

theorem zmlToken_suffix {s t r : Str} (h : zmlToken s = .tok t r) : r <:+ s := by
  induction hn : s.length using Nat.strongRecOn generalizing s with
  | ind n ih =>
    subst hn
    unfold zmlToken at h
    split at h
    · cases h
    · next hs =>
      split at h
      · cases h
      · next t' r' hg =>
        have h1 := getToken_lt hs hg
        have h0 := getToken_suffix hg
        split at h
        · have h2 := skipLine_le r'
          exact ((ih _ (by omega) h rfl).trans (List.dropWhile_suffix _)).trans h0
        · split at h
          · split at h
            · next r'' hk =>
              have h2 := seekPast_le hk
              exact ((ih _ (by omega) h rfl).trans (seekPast_suffix hk)).trans h0
            · cases h
          · cases h; exact h0

theorem zmlToken_div {s : Str} (h : zmlToken s = .div) : s.getLast? = some '\\' := by
  induction hn : s.length using Nat.strongRecOn generalizing s with
  | ind n ih =>
    subst hn
    unfold zmlToken at h
    split at h
    · cases h
    · next hs =>
      split at h
      · next hg => exact getToken_none hg
      · next t' r' hg =>
        have h1 := getToken_lt hs hg
        have h0 := getToken_suffix hg
        split at h
        · have h2 := skipLine_le r'
          have h3 := ih _ (by omega) h rfl
          have hne : skipLine r' ≠ [] := by intro e; rw [e] at h3; cases h3
          rw [last_of_suffix ((List.dropWhile_suffix _).trans h0 : skipLine r' <:+ s) hne]
          exact h3
        · split at h
          · split at h
            · next r'' hk =>
              have h2 := seekPast_le hk
              have h3 := ih _ (by omega) h rfl
              have hne : r'' ≠ [] := by rintro rfl; cases h3
              rw [last_of_suffix ((seekPast_suffix hk).trans h0) hne]
              exact h3
            · cases h
          · cases h

/-- Reading all tokens of a text terminates unless its last character is a backslash. -/
theorem lexAll_div {s : Str} (h : (lexAll s).2 = .div) : s.getLast? = some '\\' := by
  induction hn : s.length using Nat.strongRecOn generalizing s with
  | ind n ih =>
    subst hn
    unfold lexAll at h
    split at h
    · next t r hz =>
      have h2 := ih _ (zmlToken_lt hz) h rfl
      have hne : r ≠ [] := by rintro rfl; cases h2
      rw [last_of_suffix (zmlToken_suffix hz) hne]
      exact h2
    · cases h
    · cases h
    · next hz => exact zmlToken_div hz

/-! ### The reader -/

theorem next_len {env : Env} {st st' : St} {t : Str} (h : next env st = .ok (t, st')) :
    st'.toks = st.toks.tail ∧ (st.toks = [] → t = []) ∧ (st.fin ≠ .div → st'.fin ≠ .div) := by
  unfold next at h
  split at h
  · next t0 ts e => cases h; simp [e]
  · next e =>
    split at h
    · cases h; simp [e]
    · split at h
      · cases h
      · cases h; simp [e]
    · cases h

theorem next_div {env : Env} {st : St} (hf : st.fin ≠ .div) : next env st ≠ .div := by
  unfold next
  split
  · simp
  · split
    · simp
    · split <;> simp
    · next e => exact absurd e hf

namespace Spec
/-- The token `f` stands behind `<<`, possibly as the empty token behind the last one. -/
def Named (ts : List Str) (f : Str) : Prop := ∃ x y, ts ++ [[]] = x ++ ['<', '<'] :: f :: y
end Spec

theorem Spec.Named.mono {ts us : List Str} {f : Str} (h : Spec.Named ts f) (hs : ts <:+ us) : Spec.Named us f := by
  obtain ⟨x, y, h⟩ := h
  obtain ⟨w, rfl⟩ := hs
  exact ⟨w ++ x, y, by rw [List.append_assoc, h, List.append_assoc]⟩

theorem next_cases {env : Env} {st st' : St} {t : Str} (h : next env st = .ok (t, st')) :
    (st.toks = [] ∧ t = []) ∨ st.toks = t :: st'.toks := by
  unfold next at h
  split at h
  · next t0 ts e => cases h; simp [e]
  · next e =>
    split at h
    · cases h; simp [e]
    · split at h
      · cases h
      · cases h; simp [e]
    · cases h

theorem next_named {env : Env} {st st' : St} {t : Str} (h : next env st = .ok (t, st')) :
    Spec.Named (['<', '<'] :: st.toks) t := by
  rcases next_cases h with ⟨h1, rfl⟩ | h1
  · rw [h1]; exact ⟨[], [], rfl⟩
  · rw [h1]; exact ⟨[], st'.toks ++ [[]], rfl⟩

theorem headLabel_spec {env : Env} {tg : Target} {p : PropNode} {st : St} (hf : st.fin ≠ .div) :
    headLabel env tg p st ≠ .div ∧
    (∀ p' st', headLabel env tg p st = .ok (.stop p' st') → st'.toks <:+ st.toks ∧ st'.fin ≠ .div) ∧
    (∀ tg' p' st' t', headLabel env tg p st = .ok (.go tg' p' st' t') → st'.toks <:+ st.toks ∧ st'.fin ≠ .div) := by
  unfold headLabel
  cases h1 : next env st with
  | err => simp
  | ub => simp
  | div => exact absurd h1 (next_div hf)
  | ok r =>
    obtain ⟨t, st1⟩ := r
    obtain ⟨a1, _, a3⟩ := next_len h1
    have hl1 : st1.toks <:+ st.toks := by rw [a1]; exact List.tail_suffix _
    simp only
    split
    · cases h2 : next env st1 with
      | err => simp
      | ub => simp
      | div => exact absurd h2 (next_div (a3 hf))
      | ok r =>
        obtain ⟨t2, st2⟩ := r
        obtain ⟨b1, _, b3⟩ := next_len h2
        have hl2 : st2.toks <:+ st1.toks := by rw [b1]; exact List.tail_suffix _
        simp only [ne_eq, reduceCtorEq, not_false_eq_true, Out.ok.injEq, true_and, IsEmpty.forall_iff, implies_true,
          Head.go.injEq]
        rintro _ _ _ _ ⟨rfl, rfl, rfl, rfl⟩
        exact ⟨hl2.trans hl1, b3 (a3 hf)⟩
    · split
      · unfold stopHead
        split
        · simp
        · simp only [ne_eq, reduceCtorEq, not_false_eq_true, Out.ok.injEq, true_and, Head.stop.injEq, IsEmpty.forall_iff,
            implies_true, and_true]
          rintro _ _ ⟨rfl, rfl⟩
          exact ⟨hl1, a3 hf⟩
      · simp only [ne_eq, reduceCtorEq, not_false_eq_true, Out.ok.injEq, true_and, IsEmpty.forall_iff, implies_true,
          Head.go.injEq]
        rintro _ _ _ _ ⟨rfl, rfl, rfl, rfl⟩
        exact ⟨hl1, a3 hf⟩

theorem head_spec {env : Env} {im : Bool} {close t : Str} {p : PropNode} {st : St} (hf : st.fin ≠ .div) :
    head env im close t p st ≠ .div ∧
    (∀ p' st', head env im close t p st = .ok (.stop p' st') → st'.toks <:+ st.toks ∧ st'.fin ≠ .div) ∧
    (∀ tg' p' st' t', head env im close t p st = .ok (.go tg' p' st' t') →
      st'.toks <:+ st.toks ∧ st'.fin ≠ .div) := by
  have hstop : stopHead env p st ≠ .div ∧
      (∀ p' st', stopHead env p st = .ok (.stop p' st') → st'.toks <:+ st.toks ∧ st'.fin ≠ .div) ∧
      (∀ tg' p' st' t', stopHead env p st = .ok (.go tg' p' st' t') → st'.toks <:+ st.toks ∧ st'.fin ≠ .div) := by
    unfold stopHead
    split
    · simp
    · simp only [ne_eq, reduceCtorEq, not_false_eq_true, Out.ok.injEq, true_and, Head.stop.injEq, IsEmpty.forall_iff,
        implies_true, and_true]
      rintro _ _ ⟨rfl, rfl⟩
      exact ⟨List.suffix_refl _, hf⟩
  unfold head
  split
  · split
    · split
      · split
        · simp
        · exact headLabel_spec (st := { st with macros := st.macros ++ [(t, .empty)] }) hf
      · split
        · exact hstop
        · exact headLabel_spec hf
    · split
      · exact hstop
      · simp only [ne_eq, reduceCtorEq, not_false_eq_true, Out.ok.injEq, true_and, IsEmpty.forall_iff, implies_true,
          Head.go.injEq]
        rintro _ _ _ _ ⟨rfl, rfl, rfl, rfl⟩
        exact ⟨List.suffix_refl _, hf⟩
  · simp only [ne_eq, reduceCtorEq, not_false_eq_true, Out.ok.injEq, true_and, IsEmpty.forall_iff, implies_true,
      Head.go.injEq]
    rintro _ _ _ _ ⟨rfl, rfl, rfl, rfl⟩
    exact ⟨List.suffix_refl _, hf⟩

theorem fail_spec {env : Env} {p : PropNode} {st : St} (hf : st.fin ≠ .div) :
    fail env p st ≠ .div ∧ ∀ p' st', fail env p st = .ok (p', st') → st'.toks <:+ st.toks ∧ st'.fin ≠ .div := by
  unfold fail
  split
  · simp
  · simp only [ne_eq, reduceCtorEq, not_false_eq_true, Out.ok.injEq, true_and, Prod.mk.injEq]
    rintro _ _ ⟨rfl, rfl⟩
    exact ⟨List.suffix_refl _, hf⟩

/-- The reader does not need more steps than there are tokens. -/
theorem layer_spec (env : Env) : ∀ (n : Nat) (close : Str) (view : View) (im : Bool)
    (base : Nat) (p : PropNode) (st : St), st.fin ≠ .div → st.toks.length < n → (∀ f, Spec.Named st.toks f → env.inc f ≠ .div) →
    layer env n close view im base p st ≠ .div ∧
    ∀ p' st', layer env n close view im base p st = .ok (p', st') → st'.toks <:+ st.toks ∧ st'.fin ≠ .div := by
  intro n
  induction n with
  | zero => intro _ _ _ _ _ _ _ h _; omega
  | succ n ih =>
    intro close view im base p st hf hn hinc
    unfold layer
    cases h1 : next env st with
    | err => simp
    | ub => simp
    | div => exact absurd h1 (next_div hf)
    | ok r =>
      obtain ⟨t, st1⟩ := r
      obtain ⟨a1, a2, a3⟩ := next_len h1
      have hf1 := a3 hf
      have hl1 : st1.toks <:+ st.toks := by rw [a1]; exact List.tail_suffix _
      -- every loop below hands over fewer tokens
      have hlt : t ≠ [] → st1.toks.length < n := by
        intro ht
        have : st.toks ≠ [] := fun e => ht (a2 e)
        have h0 := List.length_pos_iff.2 this
        rw [a1, List.length_tail]; omega
      have wrap : ∀ {cl : Str} {v : View} {i : Bool} {b : Nat} {q : PropNode} {s : St}, s.fin ≠ .div →
          s.toks <:+ st1.toks → t ≠ [] →
          layer env n cl v i b q s ≠ .div ∧
          ∀ p' st', layer env n cl v i b q s = .ok (p', st') → st'.toks <:+ st.toks ∧ st'.fin ≠ .div := by
        intro cl v i b q s hs1 hs2 ht
        have h3 := ih cl v i b q s hs1 (by have := hlt ht; have := hs2.length_le; omega)
          (fun f hf => hinc f ((hf.mono hs2).mono hl1))
        refine ⟨h3.1, fun p' st' e => ?_⟩
        have h4 := h3.2 p' st' e
        exact ⟨(h4.1.trans hs2).trans hl1, h4.2⟩
      simp only
      split
      · simp only [ne_eq, reduceCtorEq, not_false_eq_true, Out.ok.injEq, true_and, Prod.mk.injEq]
        rintro _ _ ⟨rfl, rfl⟩
        exact ⟨hl1, hf1⟩
      · split
        · have h3 := fail_spec (env := env) (p := p) hf1
          refine ⟨h3.1, fun p' st' e => ?_⟩
          have h4 := h3.2 p' st' e
          exact ⟨h4.1.trans hl1, h4.2⟩
        · next ht =>
          split
          · cases h2 : next env st1 with
            | err => simp
            | ub => simp
            | div => exact absurd h2 (next_div hf1)
            | ok r =>
              obtain ⟨f, st2⟩ := r
              obtain ⟨b1, _, b3⟩ := next_len h2
              have hl2 : st2.toks <:+ st1.toks := by rw [b1]; exact List.tail_suffix _
              simp only
              cases h3 : next env st2 with
              | err => simp
              | ub => simp
              | div => exact absurd h3 (next_div (b3 hf1))
              | ok r =>
                obtain ⟨e, st3⟩ := r
                obtain ⟨c1, _, c3⟩ := next_len h3
                have hl3 : st3.toks <:+ st2.toks := by rw [c1]; exact List.tail_suffix _
                simp only
                split
                · simp
                · cases h4 : env.inc f with
                  | err => simp
                  | ub => simp
                  | div =>
                    refine absurd h4 (hinc f ?_)
                    have ht3 : t = ['<', '<'] := by assumption
                    have g1 := (next_cases h1).resolve_left (fun e => ht e.2)
                    rw [ht3] at g1
                    rw [g1]
                    exact next_named h2
                  | ok r =>
                    obtain ⟨ks, bad⟩ := r
                    exact wrap (c3 (b3 hf1)) (hl3.trans hl2) ht
          · have hh := head_spec (env := env) (im := im) (close := close) (t := t) (p := p) hf1
            cases h2 : head env im close t p st1 with
            | err => simp
            | ub => simp
            | div => exact absurd h2 hh.1
            | ok r =>
              cases r with
              | stop p2 st2 =>
                simp only [ne_eq, reduceCtorEq, not_false_eq_true, Out.ok.injEq, true_and, Prod.mk.injEq]
                rintro _ _ ⟨rfl, rfl⟩
                have := hh.2.1 _ _ h2
                exact ⟨this.1.trans hl1, this.2⟩
              | go tg p2 st2 t2 =>
                have h3 := hh.2.2 _ _ _ _ h2
                simp only
                split
                · next cl _ =>
                  have hsub := ih cl (subView view tg p2)
                    (im || tg.isMac) st2.macros.length (fetch tg p2 st2.macros) st2 h3.2
                    (by have := hlt ht; have := h3.1.length_le; omega)
                    (fun f hf => hinc f ((hf.mono h3.1).mono hl1))
                  split
                  · next c st4 e4 =>
                    have h5 := hsub.2 _ _ e4
                    exact wrap h5.2 (h5.1.trans h3.1) ht
                  · simp
                  · simp
                  · next e4 => exact absurd e4 hsub.1
                · split
                  · exact wrap h3.2 h3.1 ht
                  · have h5 := fail_spec (env := env) (p := p2) h3.2
                    refine ⟨h5.1, fun p' st' e => ?_⟩
                    have h6 := h5.2 p' st' e
                    exact ⟨(h6.1.trans h3.1).trans hl1, h6.2⟩

/-- **C21 (partial: texts that do not end with a backslash).** Reading terminates: it returns a tree, reports an error or,
when a macro is defined in the body of a macro, is undefined. Both with and without an `error_code`, and whatever the
files are that the text includes, as long as loading those that the text names behind `<<` terminates. -/
theorem C21_terminates_partial (env : Env) (text : Str) (hinc : ∀ f, Spec.Named (lexAll text).1 f → env.inc f ≠ .div)
    (h : text.getLast? ≠ some '\\') :
    parse env text ≠ .div := by
  unfold parse
  have hl := layer_spec env ((lexAll text).1.length + 1) [] (fun p ms => (p, ms)) false 0 .empty
    { toks := (lexAll text).1, fin := (lexAll text).2, macros := [], failed := false }
    (fun e => h (lexAll_div e)) (by simp) hinc
  split
  · simp
  · simp
  · simp
  · next e => exact absurd e hl.1

/-- More steps than needed do not change the outcome. -/
theorem layer_mono (env : Env) : ∀ (n : Nat) (close : Str) (view : View) (im : Bool)
    (base : Nat) (p : PropNode) (st : St), layer env n close view im base p st ≠ .div →
    layer env (n + 1) close view im base p st = layer env n close view im base p st := by
  intro n
  induction n with
  | zero => intro _ _ _ _ _ _ h; exact absurd rfl h
  | succ n ih =>
    intro close view im base p st h
    rw [layer.eq_def] at h ⊢
    conv_rhs => rw [layer.eq_def]
    simp only at h ⊢
    cases h1 : next env st with
    | err => rfl
    | ub => rfl
    | div => rfl
    | ok r =>
      obtain ⟨t, st1⟩ := r
      simp only [h1] at h ⊢
      by_cases c1 : t = close
      · simp only [if_pos c1]
      · simp only [if_neg c1] at h ⊢
        by_cases c2 : t = []
        · simp only [if_pos c2]
        · simp only [if_neg c2] at h ⊢
          by_cases c3 : t = ['<', '<']
          · simp only [if_pos c3] at h ⊢
            cases h2 : next env st1 with
            | err => rfl
            | ub => rfl
            | div => rfl
            | ok r =>
              obtain ⟨f, st2⟩ := r
              simp only [h2] at h ⊢
              cases h3 : next env st2 with
              | err => rfl
              | ub => rfl
              | div => rfl
              | ok r =>
                obtain ⟨e, st3⟩ := r
                simp only [h3] at h ⊢
                by_cases c4 : env.throws = true ∧ e ≠ ['>', '>']
                · simp only [if_pos c4]
                · simp only [if_neg c4] at h ⊢
                  cases h4 : env.inc f with
                  | err => rfl
                  | ub => rfl
                  | div => rfl
                  | ok r =>
                    obtain ⟨ks, bad⟩ := r
                    simp only [h4] at h ⊢
                    exact ih _ _ _ _ _ _ h
          · simp only [if_neg c3] at h ⊢
            cases h2 : head env im close t p st1 with
            | err => rfl
            | ub => rfl
            | div => rfl
            | ok r =>
              cases r with
              | stop p2 st2 => rfl
              | go tg p2 st2 t2 =>
                simp only [h2] at h ⊢
                cases ho : opens t2 with
                | some cl =>
                  simp only [ho] at h ⊢
                  have hd : layer env n cl (subView view tg p2)
                      (im || tg.isMac) st2.macros.length
                      (fetch tg p2 st2.macros) st2 ≠ .div := by
                    intro e
                    rw [e] at h
                    exact h rfl
                  rw [ih _ _ _ _ _ _ hd]
                  cases h5 : layer env n cl (subView view tg p2)
                      (im || tg.isMac) st2.macros.length
                      (fetch tg p2 st2.macros) st2 with
                  | err => rfl
                  | ub => rfl
                  | div => rfl
                  | ok r =>
                    rw [h5] at h
                    simp only at h ⊢
                    exact ih _ _ _ _ _ _ h
                | none =>
                  simp only [ho] at h ⊢
                  cases h5 : assign view tg p2 st2.macros t2 with
                  | none => rfl
                  | some r =>
                    simp only [h5] at h ⊢
                    exact ih _ _ _ _ _ _ h

theorem layer_mono_le (env : Env) {n m : Nat} (hnm : n ≤ m) {close : Str} {view : View} {im : Bool}
    {base : Nat} {p : PropNode} {st : St} (h : layer env n close view im base p st ≠ .div) :
    layer env m close view im base p st = layer env n close view im base p st := by
  obtain ⟨d, rfl⟩ := Nat.exists_eq_add_of_le hnm
  clear hnm
  induction d with
  | zero => rfl
  | succ d ih =>
    rw [show n + (d + 1) = (n + d) + 1 by omega, layer_mono env (n + d) _ _ _ _ _ _ (by rw [ih]; exact h), ih]

/-- **C21.** The number of steps that `parse` allows is sufficient: allowing more does not change the outcome. -/
theorem C21_bound (env : Env) (text : Str) (hinc : ∀ f, Spec.Named (lexAll text).1 f → env.inc f ≠ .div) (h : text.getLast? ≠ some '\\') (n : Nat)
    (hn : (lexAll text).1.length < n) :
    layer env n [] (fun p ms => (p, ms)) false 0 .empty
      { toks := (lexAll text).1, fin := (lexAll text).2, macros := [], failed := false } =
    layer env ((lexAll text).1.length + 1) [] (fun p ms => (p, ms)) false 0 .empty
      { toks := (lexAll text).1, fin := (lexAll text).2, macros := [], failed := false } :=
  layer_mono_le env hn (layer_spec env _ _ _ _ _ _ _ (fun e => h (lexAll_div e)) (by simp) hinc).1

/-! ### The exception -/

theorem quoteLoop_backslash {q : Char} (hq : q ≠ '\\') (body : Str) (hb : ∀ c ∈ body, c ≠ q ∧ c ≠ '\\') (acc : Str) :
    quoteLoop q acc (body ++ ['\\']) = none := by
  induction body generalizing acc with
  | nil =>
    rw [quoteLoop.eq_def]
    simp [Ne.symm hq, decodeChar]
  | cons c body ih =>
    have hc := hb c (by simp)
    rw [quoteLoop.eq_def]
    simp only [List.cons_append, if_neg hc.1, if_neg hc.2]
    exact ih (fun x hx => hb x (by simp [hx])) _

/-- **C21 is violated** by every text that consists of an opening quotation mark, any characters except that mark and
backslash, and a backslash at the end: reading never returns, with and without an `error_code`. The loop that does
not end is `C21_quote_loop`'s; it appends to the token in every iteration, so that memory is exhausted eventually. -/
theorem C21_backslash_violated (env : Env) (q : Char) (hq : q = '"' ∨ q = '\'') (body : Str)
    (hb : ∀ c ∈ body, c ≠ q ∧ c ≠ '\\') : parse env (q :: (body ++ ['\\'])) = .div := by
  have hd : isDelim q = false := by rcases hq with rfl | rfl <;> decide
  have hqq : isQuote q = true := by rcases hq with rfl | rfl <;> decide
  have hne : q ≠ '\\' := by rcases hq with rfl | rfl <;> decide
  have hs : skipDelims (q :: (body ++ ['\\'])) = q :: (body ++ ['\\']) := by simp [skipDelims, hd]
  have hg : getToken (q :: (body ++ ['\\'])) = none := by
    unfold getToken
    rw [hs, tokLoop.eq_def]
    simp only [hd, hqq, Bool.false_eq_true, if_false, if_true]
    split
    · next e => rw [quoteLoop_backslash hne body hb] at e; cases e
    · rfl
  have hz : zmlToken (q :: (body ++ ['\\'])) = .div := by
    unfold zmlToken
    rw [dif_neg (by rw [hs]; simp)]
    split
    · rfl
    · next e => rw [hg] at e; cases e
  have hl : lexAll (q :: (body ++ ['\\'])) = ([], .div) := by
    unfold lexAll
    split <;> simp_all
  unfold parse
  rw [hl]
  rfl

/-- A text with an error and a text with a quotation and a comment meet the condition of `C21_terminates_partial`, and are
read. -/
example : "a = { b".toList.getLast? ≠ some '\\' ∧ "a = \"x\\\\\" # c".toList.getLast? ≠ some '\\' ∧
    reportsError (parse ⟨true, fun _ => .err⟩ "a = { b".toList) = true ∧
    reportsError (parse ⟨false, fun _ => .err⟩ "a = { b".toList) = true ∧
    readsAs (parse ⟨true, fun _ => .err⟩ "a = \"x\\\\\" # c".toList) (.mk [] [(['a'], .leaf ['x', '\\'])] false) = true := by
  decide +kernel

end Zml
end Xo
