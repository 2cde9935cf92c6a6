import Verif.Model.Version
import Verif.Props.C25_Split
import Verif.Props.C29_IntText

/-!
C31: versions and their texts, for versions whose numbers are 32-bit integers.
-/
namespace Xo
open Spec

namespace Spec
/-- The members are values of type `int`. -/
def IntRange (v : Int) : Prop := -2 ^ 31 ≤ v ∧ v < 2 ^ 31
end Spec

/-- Characters of number texts: digits and minus. -/
theorem intToStr_chars (v : Int) : intToStr v ≠ [] ∧ ∀ c ∈ intToStr v, isDigitC c = true ∨ c = '-' := by
  obtain ⟨h1, h2, _⟩ := natToStr_spec v.natAbs
  unfold intToStr
  split
  · refine ⟨by simp, ?_⟩
    intro c hc
    rcases List.mem_cons.1 hc with rfl | hc
    · exact Or.inr rfl
    · exact Or.inl (h1 c hc)
  · exact ⟨h2, fun c hc => Or.inl (h1 c hc)⟩

theorem numberChar_not {c : Char} (h : isDigitC c = true ∨ c = '-') :
    c ∉ cstr ['.'] ∧ c ∉ cstr " \t\r\n\u000c\u000b".toList := by
  have e1 : cstr ['.'] = ['.'] := by decide +kernel
  have e2 : cstr " \t\r\n\u000c\u000b".toList = [' ', '\t', '\r', '\n', Char.ofNat 12, Char.ofNat 11] := by
    decide +kernel
  rw [e1, e2]
  constructor
  · intro hm
    simp only [List.mem_cons, List.not_mem_nil, or_false] at hm
    subst hm
    revert h; decide
  · intro hm
    simp only [List.mem_cons, List.not_mem_nil, or_false] at hm
    rcases hm with rfl | rfl | rfl | rfl | rfl | rfl <;> revert h <;> decide

/-- The numeric part of a version text. -/
def Version.numbers (v : Version) : Str := Version.toStr { v with post := [] }

theorem toStr_eq (v : Version) : Version.toStr v = Version.numbers v ++ v.post := by
  unfold Version.numbers Version.toStr; simp

theorem numbers_split (v : Version) : splitStr (Version.numbers v) ['.'] =
    [intToStr v.major, intToStr v.minor, intToStr v.patch] ++ (if v.build > 0 then [intToStr v.build] else []) := by
  have hd : ∀ c ∈ ['.'], c ∈ cstr ['.'] := by decide +kernel
  have key : ∀ ps : List Int, splitStr (concatList (ps.map intToStr) ['.']) ['.'] = ps.map intToStr := by
    intro ps
    apply C25_concat_then_split _ _ _ _ _ (by simp) hd
    · intro p hp
      obtain ⟨x, _, rfl⟩ := List.mem_map.1 hp
      exact (intToStr_chars x).1
    · intro p hp c hc
      obtain ⟨x, _, rfl⟩ := List.mem_map.1 hp
      exact (numberChar_not ((intToStr_chars x).2 c hc)).1
  have cat : ∀ ps : List Int, concatList (ps.map intToStr) ['.'] = ['.'].intercalate (ps.map intToStr) := by
    intro ps
    apply concatList_eq
    intro p hp
    obtain ⟨x, _, rfl⟩ := List.mem_map.1 hp
    exact (intToStr_chars x).1
  unfold Version.numbers Version.toStr
  by_cases hb : v.build > 0
  · have := key [v.major, v.minor, v.patch, v.build]
    rw [cat] at this
    simpa [hb, List.intercalate] using this
  · have := key [v.major, v.minor, v.patch]
    rw [cat] at this
    simpa [hb, List.intercalate] using this

theorem numbers_no_space (v : Version) : ∀ c ∈ Version.numbers v, c ∉ cstr " \t\r\n\u000c\u000b".toList := by
  intro c hc
  have hdot : '.' ∉ cstr " \t\r\n\u000c\u000b".toList := by decide +kernel
  have hn : ∀ x : Int, c ∈ intToStr x → c ∉ cstr " \t\r\n\u000c\u000b".toList :=
    fun x hx => (numberChar_not ((intToStr_chars x).2 c hx)).2
  unfold Version.numbers Version.toStr at hc
  simp only [List.append_nil, List.mem_append, List.mem_singleton] at hc
  rcases hc with ((((hc | rfl) | hc) | rfl) | hc) | hc
  · exact hn _ hc
  · exact hdot
  · exact hn _ hc
  · exact hdot
  · exact hn _ hc
  · split at hc
    · rcases List.mem_cons.1 hc with rfl | hc
      · exact hdot
      · exact hn _ hc
    · cases hc

/-- `split_str_at_first` with a separator-free head. -/
theorem splitAtFirst_at (a b seps : Str) (c : Char) (ha : ∀ x ∈ a, x ∉ cstr seps) (hc : c ∈ cstr seps) :
    splitAtFirst (a ++ c :: b) seps = .ok (a, b) := by
  rcases C25_split_at_first (a ++ c :: b) seps with ⟨h, _⟩ | ⟨a', c', b', h, e, hc', ha'⟩
  · exact absurd hc (h c (by simp))
  · rw [h]
    have h1 := span_append (p := fun x => !(cstr seps).contains x) (a := a) (r := c :: b) (by simpa using ha)
      (by intro x hx; cases hx; simpa using hc)
    have h2 := span_append (p := fun x => !(cstr seps).contains x) (a := a') (r := c' :: b') (by simpa using ha')
      (by intro x hx; cases hx; simpa using hc')
    rw [e] at h1
    have e1 := h1.1.symm.trans h2.1
    have e2 := h1.2.symm.trans h2.2
    injection e2 with _ e3
    rw [e1, e3]

theorem splitAtFirst_none (a seps : Str) (ha : ∀ x ∈ a, x ∉ cstr seps) : splitAtFirst a seps = .ok (a, []) := by
  rcases C25_split_at_first a seps with ⟨_, h⟩ | ⟨a', c', b', h, e, hc', _⟩
  · exact h
  · exact absurd hc' (ha c' (by rw [e]; simp))

/-- Reading the numbers of a version. -/
theorem fromStr_numbers (s post : Str) (v ver : Version)
    (h : splitAtFirst s " \t\r\n\u000c\u000b".toList = .ok (Version.numbers v, post))
    (h1 : IntRange v.major) (h2 : IntRange v.minor) (h3 : IntRange v.patch) (h4 : IntRange v.build) :
    Version.fromStr s ver =
      (true, ⟨v.major, v.minor, v.patch, if v.build > 0 then v.build else ver.build, post⟩) := by
  unfold Version.fromStr
  rw [h]
  simp only [numbers_split]
  by_cases hb : v.build > 0 <;>
    simp [hb, C29_int _ h1, C29_int _ h2, C29_int _ h3, C29_int _ h4]

/-- **C31 (partial: no postfix; with a build, or a target that has the same build already, as a new version has 0).** The
version is restored, whatever else the target contained. -/
theorem C31_roundtrip_partial (v ver : Version)
    (h1 : IntRange v.major) (h2 : IntRange v.minor) (h3 : IntRange v.patch) (h4 : IntRange v.build)
    (hp : v.post = []) (hb : 0 < v.build ∨ v.build = ver.build) :
    Version.fromStr (Version.toStr v) ver = (true, v) := by
  rw [fromStr_numbers _ [] v ver ?_ h1 h2 h3 h4]
  · obtain ⟨a, b, c, d, p⟩ := v
    simp only at hp hb ⊢
    subst hp
    rcases hb with hb | hb
    · rw [if_pos hb]
    · split
      · rfl
      · rw [hb]
  · rw [toStr_eq, hp, List.append_nil]
    exact splitAtFirst_none _ _ (numbers_no_space v)

/-- **C31 (partial: the text form that can be read).** Numbers, one whitespace character and a postfix are read as that
version. -/
theorem C31_read_postfix_partial (v ver : Version) (c : Char) (hc : c ∈ " \t\r\n\u000c\u000b".toList)
    (h1 : IntRange v.major) (h2 : IntRange v.minor) (h3 : IntRange v.patch) (h4 : IntRange v.build)
    (hb : 0 < v.build ∨ v.build = ver.build) :
    Version.fromStr (Version.toStr { v with post := [] } ++ c :: v.post) ver = (true, v) := by
  rw [fromStr_numbers _ v.post v ver ?_ h1 h2 h3 h4]
  · obtain ⟨a, b, c, d, p⟩ := v
    simp only at hb ⊢
    rcases hb with hb | hb
    · rw [if_pos hb]
    · split
      · rfl
      · rw [hb]
  · apply splitAtFirst_at
    · exact numbers_no_space v
    · have : cstr " \t\r\n\u000c\u000b".toList = " \t\r\n\u000c\u000b".toList := by decide +kernel
      rw [this]; exact hc

/-- **C31 is violated for every version with a postfix**: whatever the target contained, the postfix is not restored. -/
theorem C31_postfix_violated (v ver : Version) (hp : v.post ≠ []) : Version.fromStr (Version.toStr v) ver ≠ (true, v) := by
  -- the postfix read is a proper suffix of the postfix written
  have key : ∃ nums post, splitAtFirst (Version.toStr v) " \t\r\n\u000c\u000b".toList = .ok (nums, post) ∧
      post.length < v.post.length := by
    rw [toStr_eq]
    rcases C25_split_at_first v.post " \t\r\n\u000c\u000b".toList with ⟨h, _⟩ | ⟨a, c, b, _, e, hc, ha⟩
    · refine ⟨_, [], splitAtFirst_none _ _ ?_, List.length_pos_iff.2 hp⟩
      intro x hx
      rcases List.mem_append.1 hx with hx | hx
      · exact numbers_no_space v x hx
      · exact h x hx
    · refine ⟨Version.numbers v ++ a, b, ?_, by rw [e]; simp; omega⟩
      rw [e, ← List.append_assoc]
      apply splitAtFirst_at
      · intro x hx
        rcases List.mem_append.1 hx with hx | hx
        · exact numbers_no_space v x hx
        · exact ha x hx
      · exact hc
  obtain ⟨nums, post, hs, hl⟩ := key
  intro hcon
  unfold Version.fromStr at hcon
  rw [hs] at hcon
  simp only at hcon
  have fin : ∀ w : Version, (true, { w with post := post }) = (true, v) → False := by
    intro w hw
    have : post = v.post := by
      have := congrArg (fun x => x.2.post) hw
      simpa using this
    rw [this] at hl
    omega
  split at hcon
  · split at hcon
    · split at hcon
      · split at hcon
        · exact fin _ hcon
        · cases hcon
      · cases hcon
    · cases hcon
  · cases hcon

/-- **C31 is violated for a target with another build**: a version without build keeps the target's. -/
theorem C31_build_violated (v ver : Version)
    (h1 : IntRange v.major) (h2 : IntRange v.minor) (h3 : IntRange v.patch) (h4 : IntRange v.build)
    (hp : v.post = []) (hb : v.build ≤ 0) (hne : v.build ≠ ver.build) :
    Version.fromStr (Version.toStr v) ver = (true, { v with build := ver.build }) ∧
    Version.fromStr (Version.toStr v) ver ≠ (true, v) := by
  have e : Version.fromStr (Version.toStr v) ver = (true, { v with build := ver.build }) := by
    rw [fromStr_numbers _ [] v ver ?_ h1 h2 h3 h4]
    · rw [if_neg (by omega)]
      simp [hp]
    · rw [toStr_eq, hp, List.append_nil]
      exact splitAtFirst_none _ _ (numbers_no_space v)
  refine ⟨e, ?_⟩
  rw [e]
  intro h
  have := congrArg (fun x => x.2.build) h
  exact hne this.symm

example : Version.toStr ⟨1, 2, 3, 4, []⟩ = "1.2.3.4".toList ∧
    Version.fromStr "1.2.3 rc1".toList ⟨0, 0, 0, 0, []⟩ = (true, ⟨1, 2, 3, 0, "rc1".toList⟩) ∧
    Version.fromStr (Version.toStr ⟨1, 2, 3, 0, " rc1".toList⟩) ⟨0, 0, 0, 0, []⟩ = (true, ⟨1, 2, 3, 0, "rc1".toList⟩) ∧
    Version.fromStr "1.2".toList ⟨9, 9, 9, 9, []⟩ = (false, ⟨9, 9, 9, 9, []⟩) := by decide +kernel

end Xo
