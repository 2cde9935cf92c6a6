import Verif.Model.Path
import Verif.Lemmas.Str
import Verif.Props.C26_Trim

/-!
C32: taking paths apart. Separators are `/` and `\`. The specification divides a path into the text up to and including its
last separator and the last component, and the component into the text before its last dot and the rest.
-/
namespace Xo
namespace Spec

/-- `f` is the last component of `p`, `dir` the text before it with its separator. -/
structure Component (p dir f : Str) : Prop where
  cat : p = dir ++ f
  free : ∀ c ∈ f, c ≠ '/' ∧ c ≠ '\\'
  dir_end : dir = [] ∨ ∃ a, dir = a ++ ['/'] ∨ dir = a ++ ['\\']

/-- `ex` is the extension of the component `f` with its dot, or empty if there is no dot; `st` is the text before it. -/
structure Extension (f st ex : Str) : Prop where
  cat : f = st ++ ex
  dot : (ex = [] ∧ '.' ∉ f) ∨ ∃ x, ex = '.' :: x ∧ '.' ∉ x

/-- A directory text to which a name can be appended behind a slash: not empty and not ending in a separator or colon. -/
def Directory (a : Str) : Prop := ∃ b c, a = b ++ [c] ∧ c ≠ '/' ∧ c ≠ '\\' ∧ c ≠ ':'

end Spec

open Spec Path

theorem mem_seps {c : Char} : Path.seps.contains c = true ↔ c = '/' ∨ c = '\\' := by
  simp [Path.seps]

theorem not_mem_seps {c : Char} : Path.seps.contains c = false ↔ c ≠ '/' ∧ c ≠ '\\' := by
  simp [Path.seps]

/-- **C32.** Every path has a last component and that has an extension, possibly empty; both are unique. -/
theorem C32_decompose (p : Str) : ∃ dir f st ex, Component p dir f ∧ Extension f st ex := by
  have h1 : ∃ dir f, Component p dir f := by
    cases h : Path.lastSep p with
    | none =>
      refine ⟨[], p, rfl, ?_, Or.inl rfl⟩
      intro c hc
      exact not_mem_seps.1 (findLastIdx_none h c hc)
    | some i =>
      obtain ⟨a, c, b, e, _, hc, hb⟩ := findLastIdx_split h
      refine ⟨a ++ [c], b, by simp [e], fun x hx => not_mem_seps.1 (hb x hx), Or.inr ⟨a, ?_⟩⟩
      rcases mem_seps.1 hc with rfl | rfl
      · exact Or.inl rfl
      · exact Or.inr rfl
  have h2 : ∀ f : Str, ∃ st ex, Extension f st ex := by
    intro f
    cases h : Path.lastDot f with
    | none =>
      refine ⟨f, [], by simp, Or.inl ⟨rfl, ?_⟩⟩
      intro hm
      have := findLastIdx_none h '.' hm
      simp at this
    | some i =>
      obtain ⟨a, c, b, e, _, hc, hb⟩ := findLastIdx_split h
      have : c = '.' := by simpa using hc
      subst this
      refine ⟨a, '.' :: b, e, Or.inr ⟨b, rfl, ?_⟩⟩
      intro hm
      have := hb '.' hm
      simp at this
  obtain ⟨dir, f, hc⟩ := h1
  obtain ⟨st, ex, he⟩ := h2 f
  exact ⟨dir, f, st, ex, hc, he⟩

/-- The position of the last separator is the end of the directory part. -/
theorem lastSep_eq {p dir f : Str} (h : Component p dir f) :
    Path.lastSep p = if dir = [] then none else some (dir.length - 1) := by
  have hf : ∀ x ∈ f, Path.seps.contains x = false := fun x hx => not_mem_seps.2 (h.free x hx)
  rw [h.cat]
  rcases h.dir_end with rfl | ⟨a, ha⟩
  · rw [if_pos rfl]
    unfold Path.lastSep findLastOf
    cases hh : findLastIdx (fun c => Path.seps.contains c) ([] ++ f) with
    | none => rfl
    | some i =>
      obtain ⟨a, c, b, e, _, hc, _⟩ := findLastIdx_split hh
      have : c ∈ f := by
        have : f = a ++ c :: b := by simpa using e
        rw [this]; simp
      rw [hf c this] at hc; cases hc
  · obtain ⟨c, hd, hc⟩ : ∃ c, dir = a ++ [c] ∧ Path.seps.contains c = true := by
      rcases ha with rfl | rfl
      · exact ⟨_, rfl, by decide⟩
      · exact ⟨_, rfl, by decide⟩
    rw [hd, if_neg (by simp)]
    have := findLastIdx_append_hit (p := fun c => Path.seps.contains c) (a := a) (c := c) (b := f) hc hf
    unfold Path.lastSep findLastOf
    simpa using this

theorem lastDot_none {p : Str} (h : '.' ∉ p) : Path.lastDot p = none := by
  unfold Path.lastDot findLastOf
  cases hh : findLastIdx (fun c => ['.'].contains c) p with
  | none => rfl
  | some i =>
    obtain ⟨a, c, b, e, _, hc, _⟩ := findLastIdx_split hh
    have : c = '.' := by simpa using hc
    subst this
    exact absurd (by rw [e]; simp) h

theorem lastDot_at {a x : Str} (h : '.' ∉ x) : Path.lastDot (a ++ '.' :: x) = some a.length := by
  apply findLastIdx_append_hit
  · simp
  · intro c hc
    have : c ≠ '.' := by rintro rfl; exact h hc
    simpa using this

/-- **C32.** `filename` is the last component. -/
theorem C32_filename (p dir f : Str) (h : Component p dir f) : Path.filename p = f := by
  unfold Path.filename
  rw [lastSep_eq h]
  by_cases hd : dir = []
  · rw [if_pos hd]
    simp only
    rw [h.cat, hd]; rfl
  · rw [if_neg hd]
    have : 0 < dir.length := List.length_pos_iff.2 hd
    simp only
    rw [h.cat, show dir.length - 1 + 1 = dir.length by omega, List.drop_left]

/-- **C32.** `parent_path` is the directory part without its last separator. -/
theorem C32_parent (p dir f : Str) (h : Component p dir f) : Path.parentPath p = dir.dropLast := by
  unfold Path.parentPath
  rw [lastSep_eq h]
  by_cases hd : dir = []
  · rw [if_pos hd]
    simp only
    rw [hd]; rfl
  · rw [if_neg hd]
    have : 0 < dir.length := List.length_pos_iff.2 hd
    simp only
    rw [h.cat, List.dropLast_eq_take, List.take_append_of_le_length (by omega)]

/-- **C32.** `stem` is the last component without its extension. -/
theorem C32_stem (p dir f st ex : Str) (h : Component p dir f) (he : Extension f st ex) : Path.stem p = st := by
  have hn1 : Path.fileStart p = dir.length := by
    unfold Path.fileStart
    rw [lastSep_eq h]
    by_cases hd : dir = []
    · rw [if_pos hd, hd]; rfl
    · rw [if_neg hd]
      have : 0 < dir.length := List.length_pos_iff.2 hd
      simp only
      omega
  have hdrop : p.drop dir.length = f := by rw [h.cat, List.drop_left]
  unfold Path.stem
  simp only [hn1, hdrop]
  rcases he.dot with ⟨rfl, hno⟩ | ⟨x, rfl, hx⟩
  · have hst : f = st := by simpa using he.cat
    cases hl : Path.lastDot p with
    | none => exact hst
    | some n2 =>
      have : ¬ n2 ≥ dir.length := by
        obtain ⟨a, c, b, e, hlen, hc, _⟩ := findLastIdx_split hl
        have : c = '.' := by simpa using hc
        subst this
        intro hge
        apply hno
        have : f = (a ++ '.' :: b).drop dir.length := by rw [← e, hdrop]
        rw [this, List.drop_append_of_le_length (by omega)]
        simp
      simp only
      rw [if_neg this]; exact hst
  · have e : p = (dir ++ st) ++ '.' :: x := by rw [h.cat, he.cat]; simp
    have hl : Path.lastDot p = some (dir ++ st).length := by rw [e]; exact lastDot_at hx
    rw [hl]
    simp only [List.length_append]
    rw [if_pos (by omega), he.cat, show dir.length + st.length - dir.length = st.length by omega, List.take_left']
    rfl

/-- **C32 (partial: the component has a dot, or the path has none).** `extension` is that of the last component. -/
theorem C32_extension_partial (p dir f st ex : Str) (h : Component p dir f) (he : Extension f st ex)
    (hd : '.' ∈ f ∨ '.' ∉ p) : Path.extension p = ex ∧ Path.extensionNoDot p = ex.drop 1 := by
  unfold Path.extension Path.extensionNoDot
  rcases he.dot with ⟨rfl, hno⟩ | ⟨x, rfl, hx⟩
  · rw [lastDot_none (hd.resolve_left hno)]
    simp
  · have e : p = (dir ++ st) ++ '.' :: x := by rw [h.cat, he.cat]; simp
    have hl : Path.lastDot p = some (dir ++ st).length := by rw [e]; exact lastDot_at hx
    rw [hl]
    simp only
    rw [e, List.drop_left]
    refine ⟨rfl, ?_⟩
    rw [show dir ++ st ++ '.' :: x = (dir ++ st ++ ['.']) ++ x by simp,
      show (dir ++ st).length + 1 = (dir ++ st ++ ['.']).length by simp; omega, List.drop_left]
    rfl

/-- **C32.** `stem` and `extension` make up `filename` exactly if the last component has a dot or the path has none. So the
law **is violated** for every path with a dot in a directory name and none behind it. -/
theorem C32_stem_extension_iff (p : Str) :
    Path.stem p ++ Path.extension p = Path.filename p ↔ ('.' ∈ Path.filename p ∨ '.' ∉ p) := by
  obtain ⟨dir, f, st, ex, h, he⟩ := C32_decompose p
  rw [C32_filename p dir f h, C32_stem p dir f st ex h he]
  constructor
  · intro heq
    by_contra hcon
    simp only [not_or, not_not] at hcon
    obtain ⟨hf, hp⟩ := hcon
    -- the extension begins with a dot inside the directory part
    apply hf
    rw [← heq]
    unfold Path.extension
    cases hl : Path.lastDot p with
    | none => exact absurd hp (fun hm => by simpa using findLastIdx_none hl '.' hm)
    | some n =>
      obtain ⟨a, c, b, e, hlen, hc, _⟩ := findLastIdx_split hl
      have : c = '.' := by simpa using hc
      subst this
      simp only
      rw [e, ← hlen, List.drop_left]
      simp
  · intro hd
    rw [(C32_extension_partial p dir f st ex h he hd).1, he.cat]

/-- **C32 (partial).** Under the same condition `replace_extension` changes only the extension of the last component. -/
theorem C32_replace_extension_partial (p dir f st ex e : Str) (h : Component p dir f) (he : Extension f st ex)
    (hd : '.' ∈ f ∨ '.' ∉ p) :
    Path.replaceExtension p e =
      dir ++ st ++ (if e = [] then [] else if e.head? = some '.' then e else '.' :: e) := by
  unfold Path.replaceExtension
  have : Path.eraseExtension p = dir ++ st := by
    unfold Path.eraseExtension
    rcases he.dot with ⟨rfl, hno⟩ | ⟨x, rfl, hx⟩
    · rw [lastDot_none (hd.resolve_left hno)]
      simp only
      rw [h.cat, he.cat]; simp
    · have e : p = (dir ++ st) ++ '.' :: x := by rw [h.cat, he.cat]; simp
      have hl : Path.lastDot p = some (dir ++ st).length := by rw [e]; exact lastDot_at hx
      rw [hl]
      simp only
      rw [e, List.take_left]
  rw [this]
  cases e <;> simp

/-- **C32 is violated** when only a directory name has a dot: `replace_extension` cuts the path in that directory name, and
`extension` is not empty although the last component has none. -/
theorem C32_dotted_directory_violated (a x f e : Str) (hx : '.' ∉ x) (hf : '.' ∉ f)
    (hs : ∀ c ∈ f, c ≠ '/' ∧ c ≠ '\\') :
    Component (a ++ '.' :: x ++ '/' :: f) (a ++ '.' :: x ++ ['/']) f ∧ Extension f f [] ∧
    Path.extension (a ++ '.' :: x ++ '/' :: f) = '.' :: x ++ '/' :: f ∧
    Path.replaceExtension (a ++ '.' :: x ++ '/' :: f) ('.' :: e) = a ++ '.' :: e := by
  have hno : '.' ∉ x ++ '/' :: f := by simp [hx, hf]
  have hl : Path.lastDot (a ++ '.' :: x ++ '/' :: f) = some a.length := by
    have := lastDot_at (a := a) hno
    simpa using this
  refine ⟨⟨by simp, hs, Or.inr ⟨a ++ '.' :: x, Or.inl rfl⟩⟩, ⟨by simp, Or.inl ⟨rfl, hf⟩⟩, ?_, ?_⟩
  · unfold Path.extension
    rw [hl]
    simp
  · unfold Path.replaceExtension Path.eraseExtension
    rw [hl]
    simp

theorem hasFilename_iff (p : Str) : Path.hasFilename p = true ↔ Directory p := by
  rcases List.eq_nil_or_concat p with rfl | ⟨b, c, rfl⟩
  · simp [Path.hasFilename, Path.empty, Directory]
  · rw [List.concat_eq_append]
    have h1 : Path.empty (b ++ [c]) = false := by simp [Path.empty]
    have h2 : strEndsWith (b ++ [c]) [':'] = decide (c = ':') := by
      unfold strEndsWith
      simp
    have h3 : Path.lastSep (b ++ [c]) = some ((b ++ [c]).length - 1) ↔ (c = '/' ∨ c = '\\') := by
      constructor
      · intro h
        obtain ⟨a, d, r, e, hlen, hd, _⟩ := findLastIdx_split h
        have hl := congrArg List.length e
        simp at hlen hl
        have hr : r = [] := List.length_eq_zero_iff.1 (by omega)
        subst hr
        have := (List.append_inj' e rfl).2
        injection this with e2
        subst e2
        exact mem_seps.1 hd
      · intro h
        have := findLastIdx_append_hit (p := fun c => Path.seps.contains c) (a := b) (c := c) (b := [])
          (mem_seps.2 h) (by simp)
        unfold Path.lastSep findLastOf
        rw [this]; simp
    unfold Path.hasFilename
    rw [h1, h2]
    simp only [Bool.not_false, Bool.true_and, Bool.and_eq_true, Bool.not_eq_true', decide_eq_false_iff_not,
      decide_eq_true_eq, ne_eq, h3]
    constructor
    · rintro ⟨h, h'⟩
      exact ⟨b, c, rfl, fun e => h (Or.inl e), fun e => h (Or.inr e), h'⟩
    · rintro ⟨b', c', e, h1, h2, h3⟩
      have := (List.append_inj' e rfl).2
      injection this with e2
      subst e2
      exact ⟨fun h => h.elim h1 h2, h3⟩

theorem trimLeft_free {f : Str} (hf : ∀ c, f.head? = some c → c ≠ '/' ∧ c ≠ '\\') : trimLeftStr Path.seps f = .ok f := by
  obtain ⟨l, m, h1, h2, h3, h4⟩ := C26_trim_left Path.seps f
  rw [h1]
  cases l with
  | nil => rw [h2]; rfl
  | cons c l =>
    have hc := h3 c (by simp)
    have := hf c (by rw [h2]; rfl)
    simp [Path.seps] at hc
    rcases hc with rfl | rfl
    · exact absurd rfl this.1
    · exact absurd rfl this.2

/-- **C32.** `/` puts a slash between a directory and a name. -/
theorem C32_slash (a f : Str) (ha : Directory a) (hf : ∀ c, f.head? = some c → c ≠ '/' ∧ c ≠ '\\') :
    Path.slash a f = .ok (a ++ '/' :: f) := by
  unfold Path.slash
  rw [if_pos ((hasFilename_iff a).2 ha), trimLeft_free hf]
  rfl

/-- **C32.** `parent_path / filename` gives back the path exactly if it has no separator, or its last separator is a slash
behind a directory text that is not empty and does not end in a separator or colon. So the law **is violated** for every
other path, such as `/x`, `a//b` and `a\b`. -/
theorem C32_parent_slash_filename_iff (p : Str) :
    Path.slash (Path.parentPath p) (Path.filename p) = .ok p ↔
      ((∀ c ∈ p, c ≠ '/' ∧ c ≠ '\\') ∨ ∃ a f, p = a ++ '/' :: f ∧ Directory a ∧ ∀ c ∈ f, c ≠ '/' ∧ c ≠ '\\') := by
  obtain ⟨dir, f, st, ex, h, he⟩ := C32_decompose p
  have hhead : ∀ c, f.head? = some c → c ≠ '/' ∧ c ≠ '\\' := fun c hc => h.free c (List.mem_of_head? hc)
  rw [C32_filename p dir f h, C32_parent p dir f h]
  constructor
  · intro heq
    rcases h.dir_end with rfl | ⟨a, ha⟩
    · left
      rw [h.cat]; exact h.free
    · right
      by_cases hfn : Path.hasFilename dir.dropLast = true
      · have hD := (hasFilename_iff _).1 hfn
        rw [C32_slash _ _ hD hhead] at heq
        injection heq with heq
        exact ⟨dir.dropLast, f, heq.symm, hD, h.free⟩
      · unfold Path.slash at heq
        rw [if_neg hfn] at heq
        injection heq with heq
        rw [h.cat] at heq
        have := congrArg List.length heq
        rcases ha with rfl | rfl <;> simp at this
  · rintro (hno | ⟨a, f', e, hD, hf'⟩)
    · have : dir = [] := by
        rcases h.dir_end with h0 | ⟨a, ha⟩
        · exact h0
        · rcases ha with rfl | rfl
          · exact absurd rfl (hno '/' (by rw [h.cat]; simp)).1
          · exact absurd rfl (hno '\\' (by rw [h.cat]; simp)).2
      subst this
      rw [h.cat]
      rfl
    · -- the division is unique
      have h' : Component p (a ++ ['/']) f' := ⟨by rw [e]; simp, hf', Or.inr ⟨a, Or.inl rfl⟩⟩
      have e1 : f = f' := by rw [← C32_filename p dir f h, C32_filename p _ f' h']
      have e2 : dir.dropLast = a := by rw [← C32_parent p dir f h, C32_parent p _ f' h']; simp
      rw [e2, e1, C32_slash a f' hD (fun c hc => hf' c (List.mem_of_head? hc)), e]

/-- **C32 (partial: dotted last component, slash behind a directory).** `replace_stem` keeps directory and extension;
`replace_filename` keeps the directory. -/
theorem C32_replace_stem_partial (a f st ex s : Str) (ha : Directory a) (hf : ∀ c ∈ f, c ≠ '/' ∧ c ≠ '\\')
    (he : Extension f st ex) (hd : '.' ∈ f) (hs : ∀ c, s.head? = some c → c ≠ '/' ∧ c ≠ '\\') :
    Path.replaceStem (a ++ '/' :: f) s = .ok (a ++ '/' :: (s ++ ex)) ∧
    Path.replaceFilename (a ++ '/' :: f) s = .ok (a ++ '/' :: s) ∧
    (st ≠ [] → ∀ post, Path.concatStem (a ++ '/' :: f) post = .ok (a ++ '/' :: (st ++ post ++ ex))) := by
  have h : Component (a ++ '/' :: f) (a ++ ['/']) f := ⟨by simp, hf, Or.inr ⟨a, Or.inl rfl⟩⟩
  have hrem : Path.removeFilename (a ++ '/' :: f) = a := by
    have := C32_parent _ _ _ h
    unfold Path.parentPath at this
    unfold Path.removeFilename
    rw [this]; simp
  have hext := (C32_extension_partial _ _ _ _ _ h he (Or.inl hd)).1
  have hexh : ∀ c, ex.head? = some c → c ≠ '/' ∧ c ≠ '\\' := by
    intro c hc
    apply hf
    rw [he.cat]
    exact List.mem_append_right _ (List.mem_of_head? hc)
  have rs : ∀ s : Str, (∀ c, s.head? = some c → c ≠ '/' ∧ c ≠ '\\') →
      Path.replaceStem (a ++ '/' :: f) s = .ok (a ++ '/' :: (s ++ ex)) := by
    intro s hs
    unfold Path.replaceStem
    rw [hrem, hext]
    apply C32_slash a _ ha
    intro c hc
    cases s with
    | nil => exact hexh c hc
    | cons y s => exact hs c hc
  refine ⟨rs s hs, ?_, ?_⟩
  · unfold Path.replaceFilename
    rw [hrem]
    exact C32_slash a s ha hs
  · intro hst post
    cases st with
    | nil => exact absurd rfl hst
    | cons y st =>
      unfold Path.concatStem
      rw [C32_stem _ _ _ _ _ h he]
      apply rs
      intro c hc
      apply hf
      rw [he.cat]
      cases hc
      simp

/-- **C32.** `make_preferred` removes every backslash, keeps every other character and is idempotent. -/
theorem C32_make_preferred (p : Str) : '\\' ∉ Path.makePreferred p ∧ (Path.makePreferred p).length = p.length ∧
    (∀ i : Nat, ∀ c : Char, p[i]? = some c → c ≠ '\\' → (Path.makePreferred p)[i]? = some c) ∧
    Path.makePreferred (Path.makePreferred p) = Path.makePreferred p := by
  unfold Path.makePreferred
  refine ⟨?_, by simp, ?_, ?_⟩
  · intro h
    obtain ⟨c, _, hc⟩ := List.mem_map.1 h
    split at hc
    · exact absurd hc (by decide)
    · next hne => exact hne hc
  · intro i c hc hne
    rw [List.getElem?_map, hc]
    simp [hne]
  · rw [List.map_map]
    apply List.map_congr_left
    intro c _
    simp only [Function.comp]
    by_cases h : c = '\\'
    · simp [h]
    · simp [h]

example : Path.parentPath "a/b.c/d.e.f".toList = "a/b.c".toList ∧ Path.filename "a/b.c/d.e.f".toList = "d.e.f".toList ∧
    Path.stem "a/b.c/d.e.f".toList = "d.e".toList ∧ Path.extension "a/b.c/d.e.f".toList = ".f".toList ∧
    Path.extension "a.b/c".toList = ".b/c".toList ∧ Path.slash [] "x".toList = .ok "x".toList ∧
    Path.parentPath "/x".toList = [] := by decide +kernel

example : Directory "a/b".toList := ⟨"a/".toList, 'b', by decide +kernel, by decide, by decide, by decide⟩

end Xo
