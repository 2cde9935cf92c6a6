import Verif.Model.SystemDirs

/-! C128. What the system says about itself.

The directory of the application is the one that holds the running program; the directories for settings, documents
and temporary files are those the environment names; the name of the computer is the one it was given. -/

namespace Xo.SysDir

namespace Spec

/-- A text the system can give: no zero inside. -/
def CText (s : Str) : Prop := ∀ c ∈ s, c ≠ Char.ofNat 0

/-- The name of a file in a directory. -/
def FileName (s : Str) : Prop := '/' ∉ s

/-- The directory of a file with the full name `dir/file`; the root directory has the name `/`. -/
def dirOf (dir : Str) : Str := if dir = [] then ['/'] else dir

end Spec
open Spec

theorem cstr_all : ∀ {t : Str}, CText t → cstr t = t
  | [], _ => rfl
  | c :: t, h => by
    have h1 : c ≠ Char.ofNat 0 := h c (by simp)
    have h2 : t.takeWhile (· ≠ Char.ofNat 0) = t := cstr_all fun d hd => h d (by simp [hd])
    unfold cstr
    rw [List.takeWhile_cons, if_pos (by simpa using h1), h2]

theorem lastSep_eq {d f : Str} (h : ∀ c ∈ f, c ≠ '/' ∧ c ≠ '\\') : Path.lastSep (d ++ '/' :: f) = some d.length := by
  unfold Path.lastSep findLastOf findLastIdx Path.seps
  rw [List.reverse_append, List.reverse_cons, List.append_assoc, List.findIdx?_append,
    List.findIdx?_eq_none_iff.2 (by intro c hc; have := h c (List.mem_reverse.1 hc); simp [this.1, this.2])]
  simp [List.findIdx?_cons]

/-- The directory of the program, unless it is the root directory, its name is over 1023 characters long or the file
name has a backslash. -/
theorem C128_application_partial {d f : Str} (hd : CText d) (hf : CText f) (hn : FileName f) (hb : '\\' ∉ f) (h0 : d ≠ [])
    (hl : (d ++ '/' :: f).length ≤ 1023) : applicationDir (some (d ++ '/' :: f)) = dirOf d := by
  have hc : CText (d ++ '/' :: f) := by
    intro c hc
    simp only [List.mem_append, List.mem_cons] at hc
    rcases hc with hc | rfl | hc
    · exact hd c hc
    · decide
    · exact hf c hc
  have hs : ∀ c ∈ f, c ≠ '/' ∧ c ≠ '\\' := fun c hc => ⟨by rintro rfl; exact hn hc, by rintro rfl; exact hb hc⟩
  simp only [applicationDir]
  rw [List.take_of_length_le hl, cstr_all hc, Path.parentPath, lastSep_eq hs]
  simp [dirOf, h0]

/-- A program in the root directory has no directory. -/
theorem C128_root_violated {f : Str} (hf : CText f) (hn : FileName f) (hb : '\\' ∉ f) (hl : f.length ≤ 1022) :
    applicationDir (some ('/' :: f)) = [] ∧ applicationDir (some ('/' :: f)) ≠ dirOf [] := by
  have hc : CText ('/' :: f) := by
    intro c hc
    rcases List.mem_cons.1 hc with rfl | hc
    · decide
    · exact hf c hc
  have hs : ∀ c ∈ f, c ≠ '/' ∧ c ≠ '\\' := fun c hc => ⟨by rintro rfl; exact hn hc, by rintro rfl; exact hb hc⟩
  have e : applicationDir (some ('/' :: f)) = [] := by
    simp only [applicationDir]
    rw [List.take_of_length_le (by simp; omega), cstr_all hc, Path.parentPath]
    have := lastSep_eq (d := []) hs
    simp only [List.nil_append] at this
    rw [this]
    rfl
  exact ⟨e, by rw [e]; simp [dirOf]⟩

/-- A backslash in the name of the program, which Linux allows. -/
theorem C128_backslash_violated : applicationDir (some "/opt/a\\b".toList) = "/opt/a".toList ∧ FileName "a\\b".toList := by
  constructor
  · decide +kernel
  · simp [FileName]

/-- A long name is cut: the directory that is told is another one, for every such directory. -/
theorem C128_long_violated {d f : Str} (hl : 1023 < d.length) : applicationDir (some (d ++ '/' :: f)) ≠ dirOf d := by
  intro h
  have hd : d ≠ [] := by rintro rfl; simp at hl
  rw [show dirOf d = d by simp [dirOf, hd]] at h
  have h1 : (applicationDir (some (d ++ '/' :: f))).length ≤ 1023 := by
    simp only [applicationDir]
    have hc : (cstr ((d ++ '/' :: f).take 1023)).length ≤ 1023 := by
      unfold cstr
      exact Nat.le_trans (List.takeWhile_prefix _).length_le (by rw [List.length_take]; omega)
    unfold Path.parentPath
    split
    · rw [List.length_take]; omega
    · simp
  rw [h] at h1
  omega

/-- No link, no directory. -/
theorem C128_no_link : applicationDir none = [] := rfl

/-- The directories of the environment. -/
theorem C128_home_partial {h : Str} (hh : CText h) :
    configDir (some h) = .ok (h ++ "/.config".toList) ∧ documentsDir (some h) = .ok h := by
  simp [configDir, documentsDir, ofPtr, Res.map, cstr_all hh]

/-- Without the variable HOME both are undefined. -/
theorem C128_home_violated : configDir none = .ub ∧ documentsDir none = .ub := ⟨rfl, rfl⟩

/-- Temporary files go where TMP says, or else to `/tmp`. -/
theorem C128_temp {t : Str} (ht : CText t) : tempDir (some t) = t ∧ tempDir none = "/tmp".toList := ⟨cstr_all ht, rfl⟩

/-- After a successful change the current directory is the new one, after a failed one the same as before. -/
theorem C128_current {chdir : Option Str → Path → Option Str} {cwd : Option Str} {p : Path} {r : Bool} {c : Option Str}
    (h : setCurrentPath chdir cwd p = (r, c)) :
    (r = true → c = chdir cwd p ∧ c.isSome) ∧ (r = false → currentPath c = currentPath cwd) := by
  unfold setCurrentPath at h
  split at h <;> cases h
  · next d e => exact ⟨fun _ => ⟨e.symm, rfl⟩, fun h => by cases h⟩
  · exact ⟨fun h => (by cases h), fun _ => rfl⟩

/-- A current directory that was removed has no name: undefined. -/
theorem C128_current_violated : currentPath none = .ub := rfl

/-- The name of the computer, up to 63 characters. -/
theorem C128_name_partial {n : Str} (hn : CText n) (hl : n.length ≤ 63) : computerName n = .ok n := by
  unfold computerName
  rw [if_pos (by omega), cstr_all hn]

/-- Linux allows 64 characters. -/
theorem C128_name_violated {n : Str} (hl : n.length = 64) : computerName n = .ub := by
  unfold computerName
  rw [if_neg (by omega)]

example : applicationDir (some "/usr/local/bin/tool".toList) = "/usr/local/bin".toList := by decide +kernel

end Xo.SysDir
