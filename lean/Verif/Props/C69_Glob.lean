import Verif.Model.Glob
import Verif.Props.C25_Split

/-!
C69: wildcard matching. The property speaks of `*` and `?` only; brackets are special too, so it holds for patterns without
`[` and is violated for others.
-/
namespace Xo
open Glob

namespace Spec
/-- The glob definition: the string can be divided such that each `*` covers any run, each `?` one character, and every
other character itself. -/
inductive GlobMatch : Str → Str → Prop
  | nil : GlobMatch [] []
  | star (run p s : Str) (h : GlobMatch p s) : GlobMatch ('*' :: p) (run ++ s)
  | any (c : Char) (p s : Str) (h : GlobMatch p s) : GlobMatch ('?' :: p) (c :: s)
  | lit (c : Char) (p s : Str) (h1 : c ≠ '*') (h2 : c ≠ '?') (h : GlobMatch p s) : GlobMatch (c :: p) (c :: s)
end Spec

open Spec

/-- Matching lists of elements: a star covers any run. -/
inductive TokMatch : List Tok → Str → Prop
  | nil : TokMatch [] []
  | star (run : Str) (ts : List Tok) (s : Str) (h : TokMatch ts s) : TokMatch (.star :: ts) (run ++ s)
  | one (t : Tok) (c : Char) (ts : List Tok) (s : Str) (hc : accepts t c = true) (h : TokMatch ts s) :
      TokMatch (t :: ts) (c :: s)

theorem accepts_star (c : Char) : accepts .star c = false := rfl

theorem matchToks_star_run (ts : List Tok) (run s : Str) (h : matchToks ts s = true) :
    matchToks (.star :: ts) (run ++ s) = true := by
  induction run with
  | nil =>
    cases s with
    | nil => simpa [matchToks] using h
    | cons c s => simp only [List.nil_append]; rw [matchToks, h]; rfl
  | cons c run ih => rw [List.cons_append, matchToks, ih]; simp

theorem matchToks_complete {ts : List Tok} {s : Str} (h : TokMatch ts s) : matchToks ts s = true := by
  induction h with
  | nil => simp [matchToks]
  | star run ts s _ ih => exact matchToks_star_run ts run s ih
  | one t c ts s hc _ ih =>
    cases t with
    | star => cases hc
    | any => rw [matchToks.eq_def]; simp only; rw [hc, ih]; rfl
    | lit a => rw [matchToks.eq_def]; simp only; rw [hc, ih]; rfl
    | set n l => rw [matchToks.eq_def]; simp only; rw [hc, ih]; rfl

theorem matchToks_sound (ts : List Tok) : ∀ s : Str, matchToks ts s = true → TokMatch ts s := by
  induction ts with
  | nil =>
    intro s h
    cases s with
    | nil => exact .nil
    | cons => simp [matchToks] at h
  | cons t ts ih =>
    intro s
    cases t with
    | star =>
      induction s with
      | nil =>
        intro h
        simp only [matchToks] at h
        exact .star [] ts [] (ih _ h)
      | cons c s ihs =>
        intro h
        rw [matchToks, Bool.or_eq_true] at h
        rcases h with h | h
        · exact .star [] ts _ (ih _ h)
        · generalize hst : (Tok.star :: ts) = l at ihs h
          have := ihs h
          cases this with
          | nil => cases hst
          | star run ts' s' h' => cases hst; exact .star (c :: run) ts s' h'
          | one t c' _ _ hc => cases hst; cases hc
    | any =>
      intro h
      cases s with
      | nil => rw [matchToks.eq_def] at h; cases h
      | cons c s => rw [matchToks.eq_def] at h; simp only [Bool.and_eq_true] at h; exact .one _ c ts s h.1 (ih s h.2)
    | lit a =>
      intro h
      cases s with
      | nil => rw [matchToks.eq_def] at h; cases h
      | cons c s => rw [matchToks.eq_def] at h; simp only [Bool.and_eq_true] at h; exact .one _ c ts s h.1 (ih s h.2)
    | set n l =>
      intro h
      cases s with
      | nil => rw [matchToks.eq_def] at h; cases h
      | cons c s => rw [matchToks.eq_def] at h; simp only [Bool.and_eq_true] at h; exact .one _ c ts s h.1 (ih s h.2)

/-- The element of an ordinary pattern character. -/
def tokOf (c : Char) : Tok := if c = '*' then .star else if c = '?' then .any else .lit c

theorem toksAux_map (p : Str) (h : '[' ∉ p) : ∀ n, p.length ≤ n → toksAux n p = p.map tokOf := by
  induction p with
  | nil => intro n _; cases n <;> rfl
  | cons c p ih =>
    intro n hn
    cases n with
    | zero => simp at hn
    | succ n =>
      have hc : c ≠ '[' := by rintro rfl; exact h (by simp)
      have := ih (fun hm => h (by simp [hm])) n (by simpa using hn)
      unfold toksAux
      simp only [List.map_cons, tokOf]
      by_cases h1 : c = '*'
      · rw [if_pos h1, if_pos h1, this]
      · rw [if_neg h1, if_neg h1]
        by_cases h2 : c = '?'
        · rw [if_pos h2, if_pos h2, this]
        · rw [if_neg h2, if_neg h2, if_neg hc, this]

theorem tokMatch_iff (p s : Str) : TokMatch (p.map tokOf) s ↔ GlobMatch p s := by
  constructor
  · induction p generalizing s with
    | nil => intro h; cases h; exact .nil
    | cons c p ih =>
      intro h
      rw [List.map_cons] at h
      by_cases h1 : c = '*'
      · subst h1
        have e : tokOf '*' = .star := rfl
        rw [e] at h
        cases h with
        | star run _ s' h => exact .star run p s' (ih _ h)
        | one _ _ _ _ hc => cases hc
      · by_cases h2 : c = '?'
        · subst h2
          have e : tokOf '?' = .any := rfl
          rw [e] at h
          cases h with
          | one _ c _ s' hc h => exact .any c p s' (ih _ h)
        · have e : tokOf c = .lit c := by unfold tokOf; rw [if_neg h1, if_neg h2]
          rw [e] at h
          cases h with
          | one _ c' _ s' hc h =>
            have : c = c' := by simpa [accepts] using hc
            subst this
            exact .lit c p s' h1 h2 (ih _ h)
  · intro h
    induction h with
    | nil => exact .nil
    | star run p s _ ih => exact .star run _ s ih
    | any c p s _ ih => exact .one _ c _ s rfl ih
    | lit c p s h1 h2 _ ih =>
      refine .one _ c _ s ?_ ih
      unfold tokOf
      rw [if_neg h1, if_neg h2]
      simp [accepts]

/-- **C69 (partial: patterns without `[`).** A pattern matches a string exactly by the glob definition. (Strings with a NUL
are cut there, because they are passed as C strings.) -/
theorem C69_match_partial (s p : Str) (hp : '[' ∉ p) (h0 : Char.ofNat 0 ∉ p) (hs : Char.ofNat 0 ∉ s) :
    patternMatch s p = true ↔ GlobMatch p s := by
  unfold patternMatch
  rw [C25_separators p h0, C25_separators s hs, toks, toksAux_map p hp _ (Nat.le_refl _), ← tokMatch_iff]
  exact ⟨matchToks_sound _ _, matchToks_complete⟩

/-- **C69 (all patterns, in terms of their elements).** The backtracking search finds a division exactly if there is one. -/
theorem C69_search (s p : Str) : patternMatch s p = true ↔ TokMatch (toks (cstr p)) (cstr s) :=
  ⟨matchToks_sound _ _, matchToks_complete⟩

/-- **C69.** A matcher accepts a string exactly if one of its patterns matches, where the patterns are the pieces between
delimiters; without any piece it accepts nothing. -/
theorem C69_matcher (pattern delims s : Str) (ps : List Str) (h : Splits (cstr delims) pattern ps) :
    matcher pattern delims s = true ↔ ∃ p ∈ ps, patternMatch s p = true := by
  unfold matcher
  rw [C25_split_unique pattern delims ps h, List.any_eq_true]

/-- **C69.** The text of a matcher describes the same matcher. -/
theorem C69_matcher_text (pattern s : Str) : matcher (matcherStr pattern [';']) [';'] s = matcher pattern [';'] s := by
  have key : splitStr (matcherStr pattern [';']) [';'] = splitStr pattern [';'] := by
    have hspl := C25_split pattern [';']
    have hprop : ∀ (t : Str) (ps : List Str), Splits (cstr [';']) t ps →
        ∀ p ∈ ps, p ≠ [] ∧ ∀ c ∈ p, c ∉ cstr [';'] := by
      intro t ps h
      induction h with
      | done => simp
      | piece g p rest ps hg hne hp hr _ ih =>
        intro q hq
        rcases List.mem_cons.1 hq with rfl | hq
        · exact ⟨hne, hp⟩
        · exact ih q hq
    have := hprop _ _ hspl
    unfold matcherStr
    apply C25_concat_then_split
    · exact fun p hp => (this p hp).1
    · exact fun p hp => (this p hp).2
    · simp
    · decide +kernel
  unfold matcher
  rw [key]

/-- **C69 is violated for brackets**: `[ab]` matches `a` and does not match itself. -/
theorem C69_bracket_violated : ∃ s p : Str,
    patternMatch s p = true ∧ ¬ GlobMatch p s ∧ patternMatch p p = false ∧ GlobMatch p p := by
  refine ⟨"a".toList, "[ab]".toList, by decide +kernel, ?_, by decide +kernel, ?_⟩
  · intro h
    have e : "[ab]".toList = '[' :: "ab]".toList := by decide +kernel
    have e2 : "a".toList = ['a'] := by decide +kernel
    rw [e, e2] at h
    cases h
  · have e : "[ab]".toList = ['[', 'a', 'b', ']'] := by decide +kernel
    rw [e]
    exact .lit _ _ _ (by decide) (by decide) (.lit _ _ _ (by decide) (by decide) (.lit _ _ _ (by decide) (by decide)
      (.lit _ _ _ (by decide) (by decide) .nil)))

/-- Backtracking is needed. -/
example : patternMatch "abcbcd".toList "a*bc?".toList = true ∧ patternMatch "abcbc".toList "a*bc?".toList = false ∧
    matcher "x*;*.txt".toList ";".toList "a.txt".toList = true ∧ matcher "".toList ";".toList "a".toList = false := by
  decide +kernel

/-! ### Sets -/
namespace Spec

/-- The text of a set: single characters, and ranges `a-b`. -/
def setText : List (Char × Char) → Str
  | [] => []
  | (a, b) :: l => (if a = b then [a] else [a, '-', b]) ++ setText l

/-- `]` ends the set except in the first place, `-` makes ranges, and `[` can begin a class of characters. -/
def SetOk (l : List (Char × Char)) : Prop :=
  l ≠ [] ∧ (∀ r ∈ l, r.1.toNat ≤ r.2.toNat ∧ r.1 ≠ '[' ∧ r.2 ≠ '[') ∧ (∀ r ∈ l, r.1 ≠ '-') ∧ (∀ r ∈ l.tail, r.1 ≠ ']') ∧
  (∀ r ∈ l, r.1 ≠ r.2 → r.2 ≠ ']')

end Spec

theorem setText_pos {l : List (Char × Char)} (h : l ≠ []) : 0 < (setText l).length := by
  cases l with
  | nil => exact absurd rfl h
  | cons r l =>
    obtain ⟨a, b⟩ := r
    rw [setText, List.length_append]
    split <;> simp <;> omega

theorem readSet_text : ∀ (l : List (Char × Char)) (first : Bool) (rest : Str) (n : Nat), (setText l).length < n →
    (∀ r ∈ l, r.1 ≠ '-') → (∀ r ∈ (if first then l.tail else l), r.1 ≠ ']') → (∀ r ∈ l, r.1 ≠ r.2 → r.2 ≠ ']') → (first = true → l ≠ []) →
    readSet n first (setText l ++ ']' :: rest) = some (l, rest) := by
  intro l
  induction l with
  | nil =>
    intro first rest n hn _ _ _ hf
    obtain ⟨n, rfl⟩ : ∃ k, n = k + 1 := ⟨n - 1, by omega⟩
    cases first with
    | true => exact absurd rfl (hf rfl)
    | false => simp [setText, readSet]
  | cons r l ih =>
    intro first rest n hn h1 h2 h3 _
    obtain ⟨a, b⟩ := r
    obtain ⟨n, rfl⟩ : ∃ k, n = k + 1 := ⟨n - 1, by omega⟩
    have ha : ¬ (a = ']' ∧ first = false) := by
      rintro ⟨e, rfl⟩
      exact h2 (a, b) (by simp) e
    have ht : ∀ r ∈ l, r.1 ≠ ']' := by
      intro r hr
      cases first with
      | true => exact h2 r (by simpa using hr)
      | false => exact h2 r (by simp [hr])
    have hrec := ih false rest
    rw [setText] at hn ⊢
    by_cases hab : a = b
    · subst hab
      rw [if_pos rfl] at hn ⊢
      have hlen : (setText l).length < n := by simp at hn; omega
      have := hrec n hlen (fun r hr => h1 r (List.mem_cons_of_mem _ hr)) (by simpa using ht) (fun r hr => h3 r (List.mem_cons_of_mem _ hr))
        (by simp)
      show readSet (n + 1) first (a :: (setText l ++ ']' :: rest)) = _
      have hne : ∀ b' r', setText l ++ ']' :: rest ≠ '-' :: b' :: r' := by
        intro b' r' e
        cases l with
        | nil => simp [setText] at e
        | cons r l =>
          obtain ⟨a', b''⟩ := r
          have := h1 (a', b'') (by simp)
          rw [setText] at e
          split at e <;> simp at e <;> exact this e.1
      rw [readSet, if_neg ha, this]
      · rfl
      · exact fun b' r' e => hne b' r' e
    · rw [if_neg hab] at hn ⊢
      have hlen : (setText l).length < n := by simp at hn; omega
      have := hrec n hlen (fun r hr => h1 r (List.mem_cons_of_mem _ hr)) (by simpa using ht) (fun r hr => h3 r (List.mem_cons_of_mem _ hr))
        (by simp)
      show readSet (n + 1) first (a :: '-' :: b :: (setText l ++ ']' :: rest)) = _
      rw [readSet, if_neg ha]
      simp only
      rw [if_neg (h3 (a, b) (by simp) hab), this]
      rfl

theorem readSet_length : ∀ {n : Nat} {first : Bool} {s : Str} {l : List (Char × Char)} {t : Str}, readSet n first s = some (l, t) →
    t.length < s.length := by
  intro n
  induction n with
  | zero => intro first s l t h; simp [readSet] at h
  | succ n ih =>
    intro first s l t h
    cases s with
    | nil => simp [readSet] at h
    | cons a r =>
      rw [readSet.eq_def] at h
      dsimp only at h
      split at h
      · cases h; simp
      · split at h
        · next b r' =>
          split at h
          · obtain ⟨q, hq, he⟩ := Option.map_eq_some_iff.1 h
            cases he
            have := ih hq
            simp at this ⊢; omega
          · obtain ⟨q, hq, he⟩ := Option.map_eq_some_iff.1 h
            cases he
            have := ih hq
            simp at this ⊢; omega
        · obtain ⟨q, hq, he⟩ := Option.map_eq_some_iff.1 h
          cases he
          have := ih hq
          simp at this ⊢; omega

theorem readBracket_length {s : Str} {neg : Bool} {l : List (Char × Char)} {t : Str} (h : readBracket s = some (neg, l, t)) :
    t.length < s.length := by
  unfold readBracket at h
  split at h <;>
  · obtain ⟨q, hq, he⟩ := Option.map_eq_some_iff.1 h
    cases he
    have := readSet_length hq
    simp at this ⊢; omega

theorem toksAux_fuel (p : Str) : ∀ n m, p.length ≤ n → p.length ≤ m → toksAux n p = toksAux m p := by
  induction hk : p.length using Nat.strongRecOn generalizing p with
  | _ k ih =>
    subst hk
    intro n m hn hm
    cases p with
    | nil => cases n <;> cases m <;> rfl
    | cons c r =>
      obtain ⟨n, rfl⟩ : ∃ k, n = k + 1 := ⟨n - 1, by simp at hn; omega⟩
      obtain ⟨m, rfl⟩ : ∃ k, m = k + 1 := ⟨m - 1, by simp at hm; omega⟩
      simp only [List.length_cons, Nat.add_le_add_iff_right] at hn hm
      have hr := ih r.length (by simp) r rfl n m hn hm
      unfold toksAux
      split
      · rw [hr]
      · split
        · rw [hr]
        · split
          · cases hb : readBracket r with
            | none => simp only [hr]
            | some q =>
              obtain ⟨neg, l, t⟩ := q
              have hlt := readBracket_length hb
              simp only
              rw [ih t.length (by simp; omega) t rfl n m (by omega) (by omega)]
          · rw [hr]

/-- **C69 (sets).** `[...]` stands for one character of the set, and `[!...]` and `[^...]` for one that is not in it. The set is given by
its characters and ranges; a `]` directly at the start belongs to the set. -/
theorem C69_set (l : List (Char × Char)) (hl : SetOk l) (sign : Str) (hsign : sign = [] ∧ l.head?.map Prod.fst ∉ [some '!', some '^'] ∨
    sign = ['!'] ∨ sign = ['^']) (p s : Str) (h0 : Char.ofNat 0 ∉ '[' :: sign ++ setText l ++ ']' :: p) (hs : Char.ofNat 0 ∉ s) :
    patternMatch s ('[' :: sign ++ setText l ++ ']' :: p) = true ↔
      ∃ c s', s = c :: s' ∧ ((∃ r ∈ l, r.1.toNat ≤ c.toNat ∧ c.toNat ≤ r.2.toNat) ↔ sign = []) ∧ patternMatch s' p = true := by
  obtain ⟨hne, -, h1, h2, h3⟩ := hl
  have hset : ∀ n, (setText l).length < n → readSet n true (setText l ++ ']' :: p) = some (l, p) := fun n hn =>
    readSet_text l true p n hn h1 (by simpa using h2) h3 (fun _ => hne)
  have hlen : (setText l).length < (setText l ++ ']' :: p).length := by simp
  have hb : readBracket (sign ++ setText l ++ ']' :: p) = some (decide (sign ≠ []), l, p) := by
    rcases hsign with ⟨rfl, hh⟩ | rfl | rfl
    · rw [List.nil_append]
      unfold readBracket
      have hx : ∀ r, setText l ++ ']' :: p ≠ '!' :: r ∧ setText l ++ ']' :: p ≠ '^' :: r := by
        intro r
        cases l with
        | nil => exact absurd rfl hne
        | cons q l =>
          obtain ⟨a, b⟩ := q
          simp at hh
          rw [setText]
          constructor <;> intro e <;> split at e <;> simp at e <;> [exact hh.1 e.1; exact hh.1 e.1; exact hh.2 e.1; exact hh.2 e.1]
      split
      · next r e => exact absurd e (hx r).1
      · next r e => exact absurd e (hx r).2
      · rw [hset _ hlen]; rfl
    · show ((readSet (setText l ++ ']' :: p).length true (setText l ++ ']' :: p)).map fun (l, t) => (true, l, t)) = _
      rw [hset _ hlen]; rfl
    · show ((readSet (setText l ++ ']' :: p).length true (setText l ++ ']' :: p)).map fun (l, t) => (true, l, t)) = _
      rw [hset _ hlen]; rfl
  have hp0 : Char.ofNat 0 ∉ p := fun h => h0 (by simp [h])
  have ht : toks ('[' :: sign ++ setText l ++ ']' :: p) = .set (decide (sign ≠ [])) l :: toks p := by
    unfold toks
    show toksAux ((sign ++ setText l ++ ']' :: p).length + 1) ('[' :: (sign ++ setText l ++ ']' :: p)) = _
    rw [toksAux, if_neg (by decide), if_neg (by decide), if_pos rfl, hb]
    simp only
    rw [toksAux_fuel p _ p.length (by simp; omega) (Nat.le_refl _)]
  unfold patternMatch
  rw [C25_separators _ h0, C25_separators s hs, C25_separators p hp0, ht]
  cases s with
  | nil => simp [matchToks]
  | cons c s =>
    rw [show matchToks (.set (decide (sign ≠ [])) l :: toks p) (c :: s) = (accepts (.set (decide (sign ≠ [])) l) c && matchToks (toks p) s) from by
      rw [matchToks]; simp]
    have hs' : Char.ofNat 0 ∉ s := fun h => hs (List.mem_cons_of_mem _ h)
    rw [Bool.and_eq_true]
    constructor
    · rintro ⟨ha, hm⟩
      refine ⟨c, s, rfl, ?_, by rw [C25_separators s hs']; exact hm⟩
      by_cases hsg : sign = [] <;> simp [accepts, hsg] at ha ⊢ <;> simpa using ha
    · rintro ⟨c', s', e, ha, hm⟩
      cases e
      rw [C25_separators s hs'] at hm
      refine ⟨?_, hm⟩
      by_cases hsg : sign = [] <;> simp [accepts, hsg] at ha ⊢ <;> simpa using ha

/-- `[]a-c]x` -/
example : patternMatch "bx".toList "[]a-c]x".toList = true :=
  (C69_set [(']', ']'), ('a', 'c')] (by simp [SetOk]) [] (.inl ⟨rfl, by simp⟩) "x".toList "bx".toList (by decide +kernel) (by decide +kernel)).2
    ⟨'b', "x".toList, by decide, by simp, by decide +kernel⟩

/-- **C69.** A text is a pattern exactly if it contains a star or a question mark. -/
theorem C69_is_pattern (s : Str) : isPattern s = true ↔ '*' ∈ s ∨ '?' ∈ s := by
  unfold isPattern findFirstOf
  rw [List.findIdx?_isSome, List.any_eq_true]
  constructor
  · rintro ⟨c, hc, h⟩
    simp at h
    rcases h with rfl | rfl
    · exact .inl hc
    · exact .inr hc
  · rintro (h | h)
    · exact ⟨_, h, by decide⟩
    · exact ⟨_, h, by decide⟩

end Xo
