import Verif.Lemmas.Xml

/-! What the XML reader finds in a text does not depend on what follows the node that it reads. -/
namespace Xo.Xml
open Spec

theorem dropWhile_ext {p : Char → Bool} {s : Str} (h : s.dropWhile p ≠ []) (q : Str) :
    (s ++ q).dropWhile p = s.dropWhile p ++ q ∧ (s ++ q).takeWhile p = s.takeWhile p := by
  induction s with
  | nil => exact absurd rfl h
  | cons c s ih =>
    rw [List.dropWhile_cons] at h
    simp only [List.cons_append, List.dropWhile_cons, List.takeWhile_cons]
    split
    · rename_i hc
      rw [if_pos hc] at h
      have := ih h
      simp only [this.1, this.2, and_self]
    · simp

theorem after_ext {pat s t : Str} (h : after pat s = some t) (q : Str) : after pat (s ++ q) = some (t ++ q) := by
  have := after_some h
  subst this
  unfold after
  rw [if_pos (List.isPrefixOf_iff_prefix.2 ⟨t ++ q, by simp⟩)]
  simp

theorem after_ext_none {pat s : Str} (h : after pat s = none) {c : Char} (hc : c ∈ s) (hp : c ∉ pat) (q : Str) :
    after pat (s ++ q) = none := by
  unfold after at h ⊢
  split at h
  · cases h
  · rename_i hn
    rw [if_neg]
    intro hh
    apply hn
    rw [List.isPrefixOf_iff_prefix] at hh ⊢
    rcases List.prefix_or_prefix_of_prefix hh (List.prefix_append s q) with h1 | h1
    · exact h1
    · exact absurd (h1.subset hc) hp

theorem readDigits_ext (b : Nat) : ∀ (s : Str) (n : Nat), (readDigits b n s).2 ≠ [] → ∀ q : Str,
    readDigits b n (s ++ q) = ((readDigits b n s).1, (readDigits b n s).2 ++ q)
  | [], n, h, q => absurd rfl h
  | c :: s, n, h, q => by
    rw [readDigits] at h ⊢
    rw [List.cons_append, readDigits]
    cases hd : digit c with
    | none => rfl
    | some d =>
      rw [hd] at h
      exact readDigits_ext b s _ h q

theorem numCode_ext {s : Str} (h : (numCode s).2 ≠ []) (q : Str) : numCode (s ++ q) = ((numCode s).1, (numCode s).2 ++ q) := by
  cases s with
  | nil => exact absurd rfl h
  | cons c s =>
    by_cases hc : c = 'x'
    · subst hc
      exact readDigits_ext 16 s 0 h q
    · have e : ∀ t : Str, numCode (c :: t) = readDigits 10 0 (c :: t) := by
        intro t
        unfold numCode
        split
        · rename_i heq; cases heq; exact absurd rfl hc
        · rfl
      rw [e] at h ⊢
      rw [List.cons_append, e]
      exact readDigits_ext 10 (c :: s) 0 h q

theorem numeric_ext {s o t : Str} (h : numeric s = .repl o t) (q : Str) : numeric (s ++ q) = .repl o (t ++ q) := by
  unfold numeric at h
  split at h
  · cases h
  · rename_i cs hi
    split at h
    · rename_i r hr
      cases h
      have := numCode_ext (s := s) (by rw [hr]; simp) q
      unfold numeric
      rw [this, hr]
      simp only [hi, List.cons_append]
    · cases h

theorem numeric_ne_plain (s : Str) : numeric s ≠ .plain := by
  unfold numeric
  split
  · simp
  · split <;> simp

theorem entity_repl_ext {s o t : Str} (h : entity s = .repl o t) {c : Char} (hc : c ∈ s)
    (hp : c ∉ ['a', 'm', 'p', 'o', 's', 'q', 'u', 't', 'g', 'l', ';', '#']) (q : Str) :
    entity (s ++ q) = .repl o (t ++ q) := by
  simp only [List.mem_cons, List.not_mem_nil, or_false, not_or] at hp
  have non : ∀ pat : Str, after pat s = none → c ∉ pat → after pat (s ++ q) = none := fun pat h h' => after_ext_none h hc h' q
  unfold entity at h ⊢
  split at h
  · rename_i r hr; cases h; simp only [after_ext hr q]
  rename_i h1
  rw [non _ h1 (by simp [hp])]
  split at h
  · rename_i r hr; cases h; simp only [after_ext hr q]
  rename_i h1
  rw [non _ h1 (by simp [hp])]
  split at h
  · rename_i r hr; cases h; simp only [after_ext hr q]
  rename_i h1
  rw [non _ h1 (by simp [hp])]
  split at h
  · rename_i r hr; cases h; simp only [after_ext hr q]
  rename_i h1
  rw [non _ h1 (by simp [hp])]
  split at h
  · rename_i r hr; cases h; simp only [after_ext hr q]
  rename_i h1
  rw [non _ h1 (by simp [hp])]
  split at h
  · simp only [List.cons_append, numeric_ext h q]
  · cases h

theorem entity_plain_ext {s : Str} (h : entity s = .plain) {c : Char} (hc : c ∈ s)
    (hp : c ∉ ['a', 'm', 'p', 'o', 's', 'q', 'u', 't', 'g', 'l', ';', '#']) (q : Str) :
    entity (s ++ q) = .plain := by
  simp only [List.mem_cons, List.not_mem_nil, or_false, not_or] at hp
  have non : ∀ pat : Str, after pat s = none → c ∉ pat → after pat (s ++ q) = none := fun pat h h' => after_ext_none h hc h' q
  unfold entity at h ⊢
  split at h
  · cases h
  rename_i h1
  rw [non _ h1 (by simp [hp])]
  split at h
  · cases h
  rename_i h1
  rw [non _ h1 (by simp [hp])]
  split at h
  · cases h
  rename_i h1
  rw [non _ h1 (by simp [hp])]
  split at h
  · cases h
  rename_i h1
  rw [non _ h1 (by simp [hp])]
  split at h
  · cases h
  rename_i h1
  rw [non _ h1 (by simp [hp])]
  split at h
  · exact absurd h (numeric_ne_plain _)
  · rename_i hh
    cases s with
    | nil => cases hc
    | cons d s =>
      simp only [List.cons_append]
      split
      · rename_i heq
        cases heq
        exact absurd rfl (hh s)
      · rfl

/-- The stop characters of texts and attributes occur in no reference. -/
def StopOk (stop : Char) : Prop := stop = '<' ∨ stop = '\'' ∨ stop = '"'

theorem readDigits_suffix (b : Nat) : ∀ (s : Str) (n : Nat), (readDigits b n s).2 <:+ s
  | [], n => List.suffix_refl _
  | c :: s, n => by
    rw [readDigits]
    split
    · exact (readDigits_suffix b s _).trans (List.suffix_cons c s)
    · exact List.suffix_refl _

theorem numCode_suffix (s : Str) : (numCode s).2 <:+ s := by
  unfold numCode
  split
  · exact (readDigits_suffix _ _ _).trans (List.suffix_cons _ _)
  · exact readDigits_suffix _ _ _

theorem entity_suffix {s o t : Str} (h : entity s = .repl o t) : t <:+ s := by
  unfold entity at h
  split at h
  · rename_i r hr; cases h; exact ⟨_, (after_some hr).symm⟩
  split at h
  · rename_i r hr; cases h; exact ⟨_, (after_some hr).symm⟩
  split at h
  · rename_i r hr; cases h; exact ⟨_, (after_some hr).symm⟩
  split at h
  · rename_i r hr; cases h; exact ⟨_, (after_some hr).symm⟩
  split at h
  · rename_i r hr; cases h; exact ⟨_, (after_some hr).symm⟩
  split at h
  · unfold numeric at h
    split at h
    · cases h
    · split at h
      · rename_i u hu
        cases h
        exact ((List.suffix_cons _ _).trans (hu ▸ numCode_suffix _)).trans (List.suffix_cons _ _)
      · cases h
  · cases h

theorem expand_rest {stop : Char} : ∀ (n : Nat) {s v t : Str} {c : Char}, expand (· ≠ stop) n s = .ok (v, c :: t) →
    c = stop ∧ c ∈ s
  | 0, s, v, t, c, h => by cases h
  | n + 1, [], v, t, c, h => by cases h
  | n + 1, d :: r, v, t, c, h => by
    have step : ∀ (u : Str) (o : Str), (∀ x ∈ u, x ∈ r) → (expand (· ≠ stop) n u >>= fun p => Out.ok (o ++ p.1, p.2)) = .ok (v, c :: t) →
        c = stop ∧ c ∈ d :: r := by
      intro u o hu hx
      cases he : expand (· ≠ stop) n u with
      | ok p =>
        rw [he] at hx
        obtain ⟨p1, p2⟩ := p
        simp only [Out.bind_ok, Out.ok.injEq, Prod.mk.injEq] at hx
        obtain ⟨-, rfl⟩ := hx
        have := expand_rest n he
        exact ⟨this.1, List.mem_cons_of_mem _ (hu _ this.2)⟩
      | err => rw [he] at hx; cases hx
      | ub => rw [he] at hx; cases hx
      | div => rw [he] at hx; cases hx
    rw [expand] at h
    split at h
    · split at h
      · split at h
        · exact step r [d] (fun _ h => h) h
        · rename_i o u heq
          refine step u o ?_ h
          have := entity_suffix heq
          exact fun x hx => this.subset hx
        · cases h
      · exact step r [d] (fun _ h => h) h
    · rename_i hg
      cases h
      exact ⟨by simpa using hg, by simp⟩

theorem expand_ext {stop : Char} (hs : StopOk stop) : ∀ (n : Nat) {s v t : Str} {c : Char},
    expand (· ≠ stop) n s = .ok (v, c :: t) → ∀ (m : Nat), n ≤ m → ∀ q : Str,
    expand (· ≠ stop) m (s ++ q) = .ok (v, c :: (t ++ q))
  | 0, s, v, t, c, h, m, hm, q => by cases h
  | n + 1, [], v, t, c, h, m, hm, q => by cases h
  | n + 1, d :: r, v, t, c, h, m, hm, q => by
    obtain ⟨m, rfl⟩ : ∃ k, m = k + 1 := ⟨m - 1, by omega⟩
    have step : ∀ (u : Str) (o : Str), (expand (· ≠ stop) n u >>= fun p => Out.ok (o ++ p.1, p.2)) = .ok (v, c :: t) →
        c = stop ∧ c ∈ u ∧ (expand (· ≠ stop) m (u ++ q) >>= fun p => Out.ok (o ++ p.1, p.2)) = .ok (v, c :: (t ++ q)) := by
      intro u o hx
      cases he : expand (· ≠ stop) n u with
      | ok p =>
        rw [he] at hx
        obtain ⟨p1, p2⟩ := p
        simp only [Out.bind_ok, Out.ok.injEq, Prod.mk.injEq] at hx
        obtain ⟨rfl, rfl⟩ := hx
        have := expand_rest n he
        refine ⟨this.1, this.2, ?_⟩
        rw [expand_ext hs n he m (by omega) q]
        rfl
      | err => rw [he] at hx; cases hx
      | ub => rw [he] at hx; cases hx
      | div => rw [he] at hx; cases hx
    have hmem : stop ∉ ['a', 'm', 'p', 'o', 's', 'q', 'u', 't', 'g', 'l', ';', '#'] := by
      rcases hs with rfl | rfl | rfl <;> decide
    rw [expand] at h
    rw [List.cons_append, expand]
    split at h
    · rename_i hg
      rw [if_pos hg]
      split at h
      · rename_i hd
        rw [if_pos hd]
        split at h
        · rename_i heq
          obtain ⟨h1, h2, h3⟩ := step r [d] h
          rw [entity_plain_ext heq h2 (h1 ▸ hmem) q]
          exact h3
        · rename_i o u heq
          obtain ⟨h1, h2, h3⟩ := step u o h
          rw [entity_repl_ext heq ((entity_suffix heq).subset h2) (h1 ▸ hmem) q]
          exact h3
        · cases h
      · rename_i hd
        rw [if_neg hd]
        exact (step r [d] h).2.2
    · rename_i hg
      cases h
      rw [if_neg hg]

theorem parseAttr_ext {s : Str} {a : Str × Str} {c : Char} {t : Str} (h : parseAttr s = .ok (a, c :: t)) (q : Str) :
    parseAttr (s ++ q) = .ok (a, c :: (t ++ q)) := by
  unfold parseAttr at h
  split at h
  · rename_i r heq
    have hne : s.dropWhile isAttrName ≠ [] := by
      intro e; rw [e] at heq; cases heq
    obtain ⟨e1, e2⟩ := dropWhile_ext hne q
    have e3 := (dropWhile_ext (p := isWs) (s := s.dropWhile isAttrName) (by rw [heq]; simp) q).1
    rw [heq] at e3
    split at h
    · rename_i k r' heq'
      have e4 := (dropWhile_ext (p := isWs) (s := r) (by rw [heq']; simp) q).1
      rw [heq'] at e4
      split at h
      · rename_i hk
        cases hx : expand (· ≠ k) (r'.length + 1) r' with
        | ok p =>
          obtain ⟨p1, p2⟩ := p
          rw [hx] at h
          cases p2 with
          | nil => cases h
          | cons d p2 =>
            simp only [Out.bind_ok, Out.ok.injEq, Prod.mk.injEq] at h
            obtain ⟨h1, h2⟩ := h
            have e5 := (dropWhile_ext (p := isWs) (s := p2) (by rw [h2]; simp) q).1
            have hs : StopOk k := by
              rcases hk with rfl | rfl
              · exact Or.inr (Or.inl rfl)
              · exact Or.inr (Or.inr rfl)
            have e6 := expand_ext hs _ hx ((r' ++ q).length + 1) (by simp) q
            unfold parseAttr
            rw [e1, e2, e3]
            simp only [List.cons_append]
            rw [e4]
            simp only [List.cons_append]
            rw [if_pos hk, e6]
            simp only [Out.bind_ok, e5, h2, List.cons_append, ← h1]
        | err => rw [hx] at h; cases h
        | ub => rw [hx] at h; cases h
        | div => rw [hx] at h; cases h
      · cases h
    · cases h
  · cases h

theorem parseAttrs_ext : ∀ (n : Nat) {s : Str} {as : List (Str × Str)} {c : Char} {t : Str},
    parseAttrs n s = .ok (as, c :: t) → ∀ (m : Nat), n ≤ m → ∀ q : Str, parseAttrs m (s ++ q) = .ok (as, c :: (t ++ q))
  | 0, s, as, c, t, h, m, hm, q => by cases h
  | n + 1, [], as, c, t, h, m, hm, q => by cases h
  | n + 1, d :: r, as, c, t, h, m, hm, q => by
    obtain ⟨m, rfl⟩ : ∃ k, m = k + 1 := ⟨m - 1, by omega⟩
    rw [parseAttrs] at h
    rw [List.cons_append, parseAttrs]
    split at h
    · rename_i hd
      rw [if_pos hd]
      cases ha : parseAttr (d :: r) with
      | ok a =>
        obtain ⟨a1, a2⟩ := a
        rw [ha] at h
        simp only [Out.bind_ok] at h
        cases hp : parseAttrs n a2 with
        | ok p =>
          obtain ⟨p1, p2⟩ := p
          rw [hp] at h
          simp only [Out.bind_ok, Out.ok.injEq, Prod.mk.injEq] at h
          obtain ⟨rfl, rfl⟩ := h
          cases a2 with
          | nil =>
            exfalso
            cases n with
            | zero => cases hp
            | succ n => cases hp
          | cons e a2 =>
            have h1 := parseAttr_ext ha q
            have h2 := parseAttrs_ext n hp m (by omega) q
            rw [List.cons_append] at h1 h2
            rw [h1]
            simp only [Out.bind_ok]
            rw [h2]
            rfl
        | err => rw [hp] at h; cases h
        | ub => rw [hp] at h; cases h
        | div => rw [hp] at h; cases h
      | err => rw [ha] at h; cases h
      | ub => rw [ha] at h; cases h
      | div => rw [ha] at h; cases h
    · rename_i hd
      cases h
      rw [if_neg hd]

theorem upTo_long (m : Str) : ∀ {s : Str} {p : Str × Str}, upTo m s = some p → m.length ≤ s.length
  | [], p, h => by cases h
  | c :: r, p, h => by
    rw [upTo] at h
    split at h
    · rename_i hp
      exact (List.isPrefixOf_iff_prefix.1 hp).length_le
    · cases hu : upTo m r with
      | none => rw [hu] at h; cases h
      | some q => exact Nat.le_succ_of_le (upTo_long m hu)

theorem upTo_ext (m : Str) : ∀ {s : Str} {p : Str × Str}, upTo m s = some p → ∀ q : Str,
    upTo m (s ++ q) = some (p.1, p.2 ++ q)
  | [], p, h, q => by cases h
  | c :: r, p, h, q => by
    have hl := upTo_long m h
    rw [upTo] at h
    rw [List.cons_append, upTo]
    split at h
    · rename_i hp
      cases h
      obtain ⟨u, hu⟩ := List.isPrefixOf_iff_prefix.1 hp
      have h2 : m.isPrefixOf (c :: (r ++ q)) = true := by
        rw [List.isPrefixOf_iff_prefix, ← List.cons_append, ← hu]
        exact ⟨u ++ q, by simp⟩
      rw [if_pos h2, ← List.cons_append, List.drop_append_of_le_length hl]
    · rename_i hp
      have h2 : ¬ m.isPrefixOf (c :: (r ++ q)) = true := by
        intro h2
        apply hp
        rw [List.isPrefixOf_iff_prefix] at h2 ⊢
        exact List.prefix_of_prefix_length_le h2 ⟨q, by simp⟩ hl
      rw [if_neg h2]
      cases hu : upTo m r with
      | none => rw [hu] at h; cases h
      | some p' =>
        rw [hu] at h
        cases h
        rw [upTo_ext m hu q]
        rfl

theorem upTo_mem (m : Str) : ∀ {s : Str} {p : Str × Str}, upTo m s = some p → ∀ c ∈ m, c ∈ s
  | [], p, h, c, hc => by cases h
  | d :: r, p, h, c, hc => by
    rw [upTo] at h
    split at h
    · rename_i hp
      exact (List.isPrefixOf_iff_prefix.1 hp).subset hc
    · cases hu : upTo m r with
      | none => rw [hu] at h; cases h
      | some q => exact List.mem_cons_of_mem _ (upTo_mem m hu c hc)

theorem docType_ext : ∀ (s : Str) (d : Nat) {t : Str}, docType d s = some t → ∀ q : Str, docType d (s ++ q) = some (t ++ q)
  | [], d, t, h, q => by cases d <;> cases h
  | c :: r, 0, t, h, q => by
    rw [docType] at h
    rw [List.cons_append, docType]
    split at h
    · rename_i hc
      cases h
      rw [if_pos hc]
    · rename_i hc
      rw [if_neg hc]
      split at h
      · rename_i hc
        rw [if_pos hc]; exact docType_ext r _ h q
      · rename_i hc
        rw [if_neg hc]; exact docType_ext r _ h q
  | c :: r, d + 1, t, h, q => by
    rw [docType] at h
    rw [List.cons_append, docType]
    split at h
    · rename_i hc
      rw [if_pos hc]; exact docType_ext r _ h q
    · rename_i hc
      rw [if_neg hc]
      split at h
      · rename_i hc
        rw [if_pos hc]; exact docType_ext r _ h q
      · rename_i hc
        rw [if_neg hc]; exact docType_ext r _ h q

theorem docType_mem : ∀ (s : Str) (d : Nat) {t : Str}, docType d s = some t → '>' ∈ s
  | [], d, t, h => by cases d <;> cases h
  | c :: r, 0, t, h => by
    rw [docType] at h
    split at h
    · rename_i hc; subst hc; simp
    · split at h <;> exact List.mem_cons_of_mem _ (docType_mem r _ h)
  | c :: r, d + 1, t, h => by
    rw [docType] at h
    split at h
    · exact List.mem_cons_of_mem _ (docType_mem r _ h)
    · split at h <;> exact List.mem_cons_of_mem _ (docType_mem r _ h)

theorem skipped_upTo_ext {m r : Str} {x : Option XNode} {t : Str} (h : skipped ((upTo m r).map Prod.snd) = .ok (x, t)) (q : Str) :
    skipped ((upTo m (r ++ q)).map Prod.snd) = .ok (x, t ++ q) := by
  cases hu : upTo m r with
  | none => rw [hu] at h; cases h
  | some p =>
    rw [hu] at h
    cases h
    rw [upTo_ext m hu q]
    rfl

theorem bang_mem {r : Str} {x : Option XNode} {t : Str} (h : bang r = .ok (x, t)) : '>' ∈ r := by
  have sk : ∀ {m u : Str}, '>' ∈ m → skipped ((upTo m u).map Prod.snd) = .ok (x, t) → '>' ∈ u := by
    intro m u hm hs
    cases hu : upTo m u with
    | none => rw [hu] at hs; cases hs
    | some p => exact upTo_mem m hu _ hm
  unfold bang at h
  split at h
  · rename_i u hu
    rw [after_some hu]
    exact List.mem_append_right _ (sk (by decide) h)
  split at h
  · rename_i u hu
    rw [after_some hu]
    split at h
    · rename_i p hp
      exact List.mem_append_right _ (upTo_mem _ hp _ (by decide))
    · cases h
  split at h
  · rename_i w u hu
    split at h
    · cases hd : docType 0 u with
      | none => rw [hd] at h; cases h
      | some v =>
        rw [after_some hu]
        exact List.mem_append_right _ (List.mem_cons_of_mem _ (docType_mem _ _ hd))
    · exact sk (by decide) h
  · exact sk (by decide) h

theorem bang_ext {r : Str} {x : Option XNode} {t : Str} (h : bang r = .ok (x, t)) (q : Str) : bang (r ++ q) = .ok (x, t ++ q) := by
  have hm := bang_mem h
  have non : ∀ pat : Str, after pat r = none → '>' ∉ pat → after pat (r ++ q) = none := fun pat h h' => after_ext_none h hm h' q
  unfold bang at h ⊢
  split at h
  · rename_i u hu
    simp only [after_ext hu q]
    exact skipped_upTo_ext h q
  rename_i h1
  rw [non _ h1 (by decide)]
  split at h
  · rename_i u hu
    simp only [after_ext hu q]
    split at h
    · rename_i p hp
      cases h
      rw [upTo_ext _ hp q]
    · cases h
  rename_i h2
  rw [non _ h2 (by decide)]
  split at h
  · rename_i w u hu
    simp only [after_ext hu q, List.cons_append]
    split at h
    · rename_i hw
      rw [if_pos hw]
      cases hd : docType 0 u with
      | none => rw [hd] at h; cases h
      | some v =>
        rw [hd] at h
        cases h
        rw [docType_ext _ _ hd q]
        rfl
    · rename_i hw
      rw [if_neg hw]
      exact skipped_upTo_ext h q
  · rename_i h3
    cases ha : after ['D', 'O', 'C', 'T', 'Y', 'P', 'E'] r with
    | none =>
      rw [non _ ha (by decide)]
      exact skipped_upTo_ext h q
    | some u =>
      cases u with
      | nil =>
        exfalso
        have := after_some ha
        rw [this] at hm
        exact absurd hm (by decide)
      | cons w u => exact absurd ha (h3 w u)

theorem elemStep_ext {cont cont' : Str → Str → List XNode → ContRes}
    (hc : ∀ r v ks y t, cont r v ks = .ok (y, t) → ∀ q : Str, cont' (r ++ q) v ks = .ok (y, t.1, t.2 ++ q))
    {s : Str} {x : Option XNode} {t : Str} (h : elemStep cont s = .ok (x, t)) (q : Str) :
    elemStep cont' (s ++ q) = .ok (x, t ++ q) := by
  unfold elemStep at h
  split at h
  · cases h
  · rename_i hne
    cases ha : parseAttrs (s.length + 1) ((s.dropWhile isName).dropWhile isWs) with
    | ok a =>
      obtain ⟨as, r⟩ := a
      rw [ha] at h
      simp only [Out.bind_ok] at h
      have hr : r ≠ [] := by
        rintro rfl; cases h
      have hd : (s.dropWhile isName).dropWhile isWs ≠ [] := by
        intro e
        rw [e, parseAttrs] at ha
        cases ha; exact hr rfl
      have hd' : s.dropWhile isName ≠ [] := by
        intro e; rw [e] at hd; exact hd rfl
      obtain ⟨e1, e2⟩ := dropWhile_ext hd' q
      have e3 := (dropWhile_ext hd q).1
      obtain ⟨c, r', rfl⟩ : ∃ c r', r = c :: r' := by
        cases r with
        | nil => exact absurd rfl hr
        | cons c r' => exact ⟨c, r', rfl⟩
      have e4 := parseAttrs_ext _ ha ((s ++ q).length + 1) (by simp) q
      unfold elemStep
      rw [e1, e2, e3, if_neg hne, e4]
      simp only [Out.bind_ok]
      split at h
      · rename_i u heq
        cases heq
        simp only []
        cases hk : cont r' [] [] with
        | ok p =>
          obtain ⟨p1, p2, p3⟩ := p
          rw [hk] at h
          cases h
          rw [hc _ _ _ _ _ hk q]
          rfl
        | err => rw [hk] at h; cases h
        | ub => rw [hk] at h; cases h
        | div => rw [hk] at h; cases h
      · rename_i u heq
        cases heq
        cases h
        rfl
      · cases h
    | err => rw [ha] at h; cases h
    | ub => rw [ha] at h; cases h
    | div => rw [ha] at h; cases h

theorem nodeStep_ext {cont cont' : Str → Str → List XNode → ContRes}
    (hc : ∀ r v ks y t, cont r v ks = .ok (y, t) → ∀ q : Str, cont' (r ++ q) v ks = .ok (y, t.1, t.2 ++ q))
    {s : Str} {x : Option XNode} {t : Str} (h : nodeStep cont s = .ok (x, t)) (q : Str) :
    nodeStep cont' (s ++ q) = .ok (x, t ++ q) := by
  unfold nodeStep at h
  split at h
  · exact skipped_upTo_ext h q
  · exact bang_ext h q
  · rename_i h1 h2
    have := elemStep_ext hc h q
    cases s with
    | nil => cases h
    | cons d s =>
      unfold nodeStep
      simp only [List.cons_append] at this ⊢
      split
      · rename_i heq; cases heq; exact absurd rfl (h1 s)
      · rename_i heq; cases heq; exact absurd rfl (h2 s)
      · exact this

theorem tagStep_ext {node node' : Str → NodeRes} {cont cont' : Str → Str → List XNode → ContRes}
    (hn : ∀ r x t, node r = .ok (x, t) → ∀ q : Str, node' (r ++ q) = .ok (x, t ++ q))
    (hnil : ∀ x t, node [] ≠ .ok (x, t))
    (hc : ∀ r v ks y t, cont r v ks = .ok (y, t) → ∀ q : Str, cont' (r ++ q) v ks = .ok (y, t.1, t.2 ++ q))
    {s v : Str} {ks : List XNode} {y : Str} {t : List XNode × Str} (h : tagStep node cont s v ks = .ok (y, t)) (q : Str) :
    tagStep node' cont' (s ++ q) v ks = .ok (y, t.1, t.2 ++ q) := by
  unfold tagStep at h
  split at h
  · rename_i r
    split at h
    · rename_i r' heq
      cases h
      have hne : r.dropWhile isName ≠ [] := by
        intro e; rw [e] at heq; cases heq
      have e1 := (dropWhile_ext hne q).1
      have e2 := (dropWhile_ext (p := isWs) (s := r.dropWhile isName) (by rw [heq]; simp) q).1
      unfold tagStep
      simp only [List.cons_append]
      rw [e1, e2, heq]
      rfl
    · cases h
  · rename_i r hr
    cases hx : node r with
    | ok p =>
      obtain ⟨p1, p2⟩ := p
      rw [hx] at h
      have e1 := hn _ _ _ hx q
      have e2 := hc _ _ _ _ _ h q
      cases r with
      | nil => exact absurd hx (hnil _ _)
      | cons d r =>
        unfold tagStep
        simp only [List.cons_append] at e1 ⊢
        split
        · rename_i heq; cases heq; exact absurd rfl (hr r)
        · rename_i heq; cases heq
          rw [e1]
          exact e2
        · rename_i hh; exact absurd rfl (hh _)
    | err => rw [hx] at h; cases h
    | ub => rw [hx] at h; cases h
    | div => rw [hx] at h; cases h
  · cases h

theorem contStep_ext {node node' : Str → NodeRes} {cont cont' : Str → Str → List XNode → ContRes}
    (hn : ∀ r x t, node r = .ok (x, t) → ∀ q : Str, node' (r ++ q) = .ok (x, t ++ q))
    (hnil : ∀ x t, node [] ≠ .ok (x, t))
    (hc : ∀ r v ks y t, cont r v ks = .ok (y, t) → ∀ q : Str, cont' (r ++ q) v ks = .ok (y, t.1, t.2 ++ q))
    {s v : Str} {ks : List XNode} {y : Str} {t : List XNode × Str} (h : contStep node cont s v ks = .ok (y, t)) (q : Str) :
    contStep node' cont' (s ++ q) v ks = .ok (y, t.1, t.2 ++ q) := by
  unfold contStep at h
  split at h
  · cases h
  · rename_i c r heq
    have e1 := (dropWhile_ext (p := isWs) (s := s) (by rw [heq]; simp) q).1
    rw [heq] at e1
    unfold contStep
    rw [e1]
    simp only [List.cons_append]
    split at h
    · rename_i hlt
      rw [if_pos hlt]
      exact tagStep_ext hn hnil hc h q
    · rename_i hlt
      rw [if_neg hlt]
      cases hx : expand (· ≠ '<') (s.length + 1) s with
      | ok p =>
        obtain ⟨p1, p2⟩ := p
        rw [hx] at h
        simp only [Out.bind_ok] at h
        cases p2 with
        | nil => cases h
        | cons d p2 =>
          rw [expand_ext (Or.inl rfl) _ hx ((s ++ q).length + 1) (by simp) q]
          exact tagStep_ext hn hnil hc h q
      | err => rw [hx] at h; cases h
      | ub => rw [hx] at h; cases h
      | div => rw [hx] at h; cases h

theorem read_ext (n : Nat) : ∀ m, n ≤ m →
    (∀ r x t, parseNode n r = .ok (x, t) → ∀ q : Str, parseNode m (r ++ q) = .ok (x, t ++ q)) ∧
    (∀ r v ks y t, parseContents n r v ks = .ok (y, t) → ∀ q : Str, parseContents m (r ++ q) v ks = .ok (y, t.1, t.2 ++ q)) := by
  induction n with
  | zero =>
    intro m _
    refine ⟨fun r x t h => ?_, fun r v ks y t h => ?_⟩
    · rw [parseNode] at h; cases h
    · rw [parseContents] at h; cases h
  | succ n ih =>
    intro m hm
    obtain ⟨m, rfl⟩ : ∃ k, m = k + 1 := ⟨m - 1, by omega⟩
    obtain ⟨h1, h2⟩ := ih m (by omega)
    refine ⟨fun r x t h q => ?_, fun r v ks y t h q => ?_⟩
    · rw [parseNode] at h ⊢
      exact nodeStep_ext h2 h q
    · rw [parseContents] at h ⊢
      refine contStep_ext h1 ?_ h2 h q
      intro x t hx
      cases n with
      | zero => rw [parseNode] at hx; cases hx
      | succ n => rw [parseNode] at hx; cases hx

/-- A part of an element that lacks its end is not read. -/
theorem cut_node {i : Item} (hi : i.isText = false) (hok : i.Ok) {p q : Str} (h : i.render = '<' :: (p ++ q)) (hq : q ≠ [])
    (n : Nat) (hn : p.length < n) : parseNode n p = .err := by
  have hf := (read_fine n).1 p hn
  cases hp : parseNode n p with
  | ok a =>
    exfalso
    obtain ⟨x, t⟩ := a
    have h1 := (read_ext n (n + q.length) (by omega)).1 p x t hp q
    have h2 := (read_both (n + q.length)).1 i hi hok (p ++ q) [] h (by
      simp only [List.length_append, List.length_nil]; omega)
    rw [List.append_nil, h1] at h2
    simp only [Out.ok.injEq, Prod.mk.injEq, List.append_eq_nil_iff] at h2
    exact hq h2.2.2
  | err => rfl
  | ub => rw [hp] at hf; exact hf.elim
  | div => rw [hp] at hf; exact hf.elim

theorem parseTop_prolog : ∀ (is : List Item), Item.AllOk is → (∀ i ∈ is, i.TopLevel) → ∀ s : Str,
    (∀ n, s.length < n → parseTop n s = .err) → ∀ n, (Item.renderAll is ++ s).length < n →
    parseTop n (Item.renderAll is ++ s) = .err
  | [], _, _, s, hs, n, hn => by
    rw [renderAll_nil] at hn ⊢
    exact hs n hn
  | i :: is, hok, htop, s, hs, n, hn => by
    rw [Item.AllOk] at hok
    have ih := parseTop_prolog is hok.2 (fun j hj => htop j (by simp [hj])) s hs
    have ht := htop i (by simp)
    cases hi : i.isText with
    | true =>
      cases i with
      | text ps =>
        have ht : ∀ p ∈ ps, p.IsBlank := ht
        have e : Item.renderAll (.text ps :: is) ++ s = renderText ps ++ (Item.renderAll is ++ s) := by
          rw [renderAll_cons, Item.render, List.append_assoc]
        rw [e] at hn ⊢
        have hn' : (Item.renderAll is ++ s).length < n := by
          rw [List.length_append] at hn; omega
        have ih := ih n hn'
        obtain ⟨n, rfl⟩ : ∃ m, n = m + 1 := ⟨n - 1, by omega⟩
        rw [parseTop] at ih ⊢
        rw [dropWs_text ht, ih]
      | single | pair | comment | instr | cdata | docType => cases hi
    | false =>
      obtain ⟨c, t, hr, -⟩ := render_tag i hi hok.1
      obtain ⟨n, rfl⟩ : ∃ m, n = m + 1 := ⟨n - 1, by omega⟩
      have e : Item.renderAll (i :: is) ++ s = '<' :: ((c :: t) ++ (Item.renderAll is ++ s)) := by
        rw [renderAll_cons, hr]; simp
      rw [e] at hn ⊢
      rw [parseTop, dropWs_cons (by decide)]
      simp only [if_true]
      have h1 := (read_both n).1 i hi hok.1 (c :: t) (Item.renderAll is ++ s) hr (by simp only [List.length_cons] at hn; omega)
      rw [h1]
      simp only [Out.bind_ok]
      rw [ih n (by simp only [List.length_cons, List.length_append] at hn ⊢; omega)]
      rfl

end Xo.Xml
