import Verif.Model.TextFiles
import Verif.Props.C67_UniqueDir
import Verif.Props.C98_Files

/-!
C107: text files.
-/
namespace Xo.TextF
open Xo Dir Dir.Fs Files Outc

namespace Spec
/-- The files and their texts. -/
def files (d : Disk) (q : Place) : Option Str := if d.fs.at? q = some .file then some (d.text q) else none

/-- Replaces, creates or takes away one file. -/
def setFile (m : Place → Option Str) (q : Place) (s : Option Str) : Place → Option Str := fun q' => if q' = q then s else m q'

/-- The place above. -/
def up (q : Place) : Place := ⟨q.abs, q.names.dropLast⟩

/-- Nothing is in the way of a path: everything above it is a directory, or not there yet. -/
def Free (fs : Fs) (q : Place) : Prop := ∀ ns, ns <+: q.names → fs.at? ⟨q.abs, ns⟩ = some .dir ∨ fs.at? ⟨q.abs, ns⟩ = none

/-- What a program does with files. -/
inductive Op where
  | save (p : Path) (s : Str)
  | append (p : Path) (s : Str)
  | remove (p : Path)
  | copy (src dst : Path) (overwrite : Bool)

/-- The files after an operation that was successful. -/
def effect (m : Place → Option Str) : Op → Place → Option Str
  | .save p s => setFile m (place p) (some s)
  | .append p s => setFile m (place p) (some ((m (place p)).getD [] ++ s))
  | .remove p => setFile m (place p) none
  | .copy src dst _ => setFile m (place dst) (m (place src))

/-- What happens around a call: whether the system refuses it, and whether it finds a directory empty. -/
structure Event where
  op : Op
  deny : Bool
  isEmpty : Bool
  throws : Bool
  code : Nat

/-- No error was thrown or recorded. -/
def noError {α : Type} (r : Out α) (ec : Option ErrCode) : Bool := match r, ec with
  | .ok _, none => true
  | .ok _, some e => decide (e.error = 0)
  | _, _ => false

/-- The files after some operations, of which it is known whether they were successful. -/
def after (m : Place → Option Str) : List (Op × Bool) → Place → Option Str
  | [] => m
  | (o, ok) :: os => after (if ok then effect m o else m) os
end Spec
open _root_.Xo.TextF.Spec
open _root_.Xo.Files.Spec (Reports)

/-! ### Directories -/

theorem cut_append (a b : Str) : cut (a ++ '/' :: b) = cut a ++ cut b := by
  induction a with
  | nil => rw [List.nil_append, cut.eq_2, if_pos rfl]; rfl
  | cons c a ih =>
    rw [List.cons_append, cut, ih]
    by_cases h : c = '/'
    · rw [if_pos h, cut, if_pos h]; rfl
    · rw [if_neg h, cut, if_neg h]
      cases hc : cut a with
      | nil => cases a with
        | nil => simp [cut] at hc
        | cons x a =>
          rw [cut] at hc
          split at hc
          · cases hc
          · split at hc <;> cases hc
      | cons x xs => rfl

theorem cut_noSlash (a : Str) (h : '/' ∉ a) : cut a = [a] := by
  induction a with
  | nil => rfl
  | cons c a ih =>
    rw [cut, if_neg (by rintro rfl; exact h (by simp)), ih (fun hh => h (by simp [hh]))]

theorem split_path (p : Path) (h : '\\' ∉ p) : '/' ∉ p ∨ ∃ a b, p = a ++ '/' :: b ∧ '/' ∉ b ∧ '\\' ∉ a ∧ '\\' ∉ b := by
  induction p with
  | nil => exact Or.inl (by simp)
  | cons c p ih =>
    simp only [List.mem_cons, not_or] at h
    rcases ih h.2 with h1 | ⟨a, b, rfl, hb, ha', hb'⟩
    · by_cases hc : c = '/'
      · exact Or.inr ⟨[], p, by simp [hc], h1, by simp, h.2⟩
      · exact Or.inl (by simp [Ne.symm hc, h1])
    · refine Or.inr ⟨c :: a, b, rfl, hb, ?_, hb'⟩
      simp only [List.mem_cons, not_or]
      exact ⟨h.1, ha'⟩

/-- A name that is not skipped. -/
abbrev good (n : Str) : Bool := decide (n ≠ [] ∧ n ≠ ['.'])

theorem place_cut (a b : Str) (hb : '/' ∉ b) :
    place (a ++ '/' :: b) = ⟨(a ++ ['/']).head? = some '/', (place a).names ++ [b].filter good⟩ := by
  unfold place
  rw [cut_append, cut_noSlash b hb, List.filter_append]
  cases a <;> rfl

theorem mkdir_at (fs : Fs) (p : Path) (q : Place) :
    (fs.mkdir false p).1.at? q = fs.at? q ∨ (fs.at? q = none ∧ (fs.mkdir false p).1.at? q = some .dir) := by
  unfold mkdir
  split
  · next h =>
    have h1 := h.1
    simp only [canMkdir, decide_eq_true_eq] at h1
    simp only
    rw [add_at fs p q h1.2.1]
    split
    · next e => rw [e]; exact Or.inr ⟨h1.2.2.1, rfl⟩
    · exact Or.inl rfl
  · exact Or.inl rfl

theorem created_at (fs : Fs) (p : Path) (q : Place) :
    (createDirectories fs p).1.at? q = fs.at? q ∨ (fs.at? q = none ∧ (createDirectories fs p).1.at? q = some .dir) := by
  fun_induction createDirectories fs p with
  | case1 => exact mkdir_at _ _ _
  | case2 p h hd _ ih =>
    rcases mkdir_at (createDirectories fs (Path.parentPath p)).1 p q with h1 | ⟨h1, h2⟩
    · rw [h1]; exact ih
    · rcases ih with h3 | ⟨h3, h4⟩
      · rw [h3] at h1; exact Or.inr ⟨h1, h2⟩
      · rw [h4] at h1; cases h1
  | case3 => exact mkdir_at _ _ _

theorem mkdir_dir (fs : Fs) (p : Path) (hp : p ≠ []) (hup : fs.at? (up (place p)) = some .dir)
    (h : fs.at? (place p) = some .dir ∨ fs.at? (place p) = none) : (fs.mkdir false p).1.at? (place p) = some .dir := by
  by_cases hn : (place p).names = []
  · unfold Fs.at?; rw [if_pos hn]
  rcases h with h | h
  · rcases mkdir_at fs p (place p) with h1 | ⟨h1, h2⟩
    · rw [h1]; exact h
    · exact h2
  · have hc : fs.canMkdir p = true := by
      simp only [canMkdir, decide_eq_true_eq]
      exact ⟨hp, hn, h, hup⟩
    unfold mkdir
    rw [if_pos ⟨hc, rfl⟩]
    simp only
    rw [add_at fs p _ hn, if_pos rfl]

theorem at_root (fs : Fs) (b : Bool) : fs.at? ⟨b, []⟩ = some .dir := rfl

theorem free_mono {fs : Fs} {q : Place} (h : Free fs q) (p : Path) : Free (createDirectories fs p).1 q := by
  intro ns hns
  rcases created_at fs p ⟨q.abs, ns⟩ with h1 | ⟨h1, h2⟩
  · rw [h1]; exact h ns hns
  · exact Or.inl h2

/-- The directories above a path and the path itself are there afterwards, if nothing is in the way. -/
theorem created_dir (n : Nat) : ∀ (fs : Fs) (p : Path), p.length ≤ n → '\\' ∉ p → Free fs (place p) →
    (createDirectories fs p).1.at? (place p) = some .dir := by
  induction n with
  | zero =>
    intro fs p hl _ _
    obtain rfl : p = [] := List.eq_nil_of_length_eq_zero (by omega)
    rfl
  | succ n ih =>
    intro fs p hl hp hf
    rcases split_path p hp with h1 | ⟨a, b, rfl, hb, ha', hb'⟩
    · have hnp : Path.hasParentPath p = false := parent_name p (fun c hc => ⟨by rintro rfl; exact h1 hc, by rintro rfl; exact hp hc⟩)
      rw [createDirectories]
      simp only [hnp, Bool.false_eq_true, dite_false]
      by_cases he : p = []
      · subst he; rfl
      · refine mkdir_dir fs p he ?_ (hf _ (List.prefix_refl _))
        have hpl : place p = ⟨p.head? = some '/', [p].filter good⟩ := by unfold place; rw [cut_noSlash p h1]
        have : (up (place p)).names = [] := by rw [up, hpl]; simp only [List.filter_cons]; split <;> rfl
        unfold Fs.at?; rw [if_pos this]
    · obtain ⟨h1, h2⟩ := parent_snoc a b (fun c hc => ⟨by rintro rfl; exact hb hc, by rintro rfl; exact hb' hc⟩)
      have hpl := place_cut a b hb
      -- the directory above
      have hfa : ∀ fs : Fs, Free fs (place (a ++ '/' :: b)) → a ≠ [] → Free fs (place a) := by
        intro fs hf hne ns hns
        have habs : (place (a ++ '/' :: b)).abs = (place a).abs := by cases a with
          | nil => exact absurd rfl hne
          | cons c a => rfl
        rw [← habs]
        refine hf ns ?_
        rw [hpl]
        exact hns.trans (List.prefix_append _ _)
      have key : ∃ fs', createDirectories fs (a ++ '/' :: b) = fs'.mkdir false (a ++ '/' :: b) ∧ Free fs' (place (a ++ '/' :: b)) ∧
          (a ≠ [] → fs'.at? (place a) = some .dir) := by
        rw [createDirectories]
        simp only [h1, h2, dite_true]
        by_cases hd : fs.directoryExists a = true
        · rw [if_pos hd]
          refine ⟨fs, rfl, hf, fun hne => ?_⟩
          rcases hfa fs hf hne _ (List.prefix_refl _) with h3 | h3
          · exact h3
          · have e : fs.stat a = none := by rw [Fs.stat, if_neg hne]; exact h3
            simp [directoryExists, e] at hd
        · rw [if_neg hd]
          refine ⟨(createDirectories fs a).1, rfl, free_mono hf a, fun hne => ?_⟩
          exact ih fs a (by simp at hl; omega) ha' (hfa fs hf hne)
      obtain ⟨fs', e, hf', hd⟩ := key
      rw [e]
      by_cases hn : (place (a ++ '/' :: b)).names = []
      · unfold Fs.at?; rw [if_pos hn]
      by_cases hg : good b = true
      · refine mkdir_dir fs' _ (by simp) ?_ (hf' _ (List.prefix_refl _))
        rw [up, hpl]
        simp only [List.filter_cons, hg, if_true, List.filter_nil, List.dropLast_concat]
        by_cases hne : a = []
        · subst hne; exact at_root _ _
        · have := hd hne
          cases a with
          | nil => exact absurd rfl hne
          | cons c a => exact this
      · have hpl' : place (a ++ '/' :: b) = ⟨(a ++ ['/']).head? = some '/', (place a).names⟩ := by
          rw [hpl]; simp only [List.filter_cons, hg]; simp
        by_cases hne : a = []
        · subst hne; exact absurd (by rw [hpl']; rfl) hn
        · have h3 : fs'.at? (place (a ++ '/' :: b)) = some .dir := by
            rw [hpl']
            have := hd hne
            cases a with
            | nil => exact absurd rfl hne
            | cons c a => exact this
          rcases mkdir_at fs' (a ++ '/' :: b) (place (a ++ '/' :: b)) with h4 | ⟨h4, h5⟩
          · rw [h4]; exact h3
          · exact h5

theorem mkdir_other (fs : Fs) (p : Path) (q : Place) (h : (fs.mkdir false p).1.at? q ≠ fs.at? q) : q = place p := by
  by_contra hq
  apply h
  unfold mkdir
  split
  · next hc =>
    have h1 := hc.1
    simp only [canMkdir, decide_eq_true_eq] at h1
    simp only
    rw [add_at fs p q h1.2.1, if_neg hq]
  · rfl

/-- Only the path itself and the directories above it are made. -/
theorem created_above (n : Nat) : ∀ (fs : Fs) (p : Path), p.length ≤ n → '\\' ∉ p → ∀ q, (createDirectories fs p).1.at? q ≠ fs.at? q →
    q.abs = (place p).abs ∧ q.names <+: (place p).names := by
  have hnil : ∀ fs : Fs, (createDirectories fs []).1 = fs := by
    intro fs
    rw [createDirectories]
    simp [show Path.hasParentPath [] = false by decide, mkdir, canMkdir]
  induction n with
  | zero =>
    intro fs p hl _ q hq
    obtain rfl : p = [] := List.eq_nil_of_length_eq_zero (by omega)
    exact absurd (by rw [hnil]) hq
  | succ n ih =>
    intro fs p hl hp q hq
    rcases split_path p hp with h1 | ⟨a, b, rfl, hb, ha', hb'⟩
    · have hnp : Path.hasParentPath p = false := parent_name p (fun c hc => ⟨by rintro rfl; exact h1 hc, by rintro rfl; exact hp hc⟩)
      rw [createDirectories] at hq
      simp only [hnp, Bool.false_eq_true, dite_false] at hq
      rw [mkdir_other fs p q hq]
      exact ⟨rfl, List.prefix_refl _⟩
    · obtain ⟨h1, h2⟩ := parent_snoc a b (fun c hc => ⟨by rintro rfl; exact hb hc, by rintro rfl; exact hb' hc⟩)
      rw [createDirectories] at hq
      simp only [h1, h2, dite_true] at hq
      split at hq
      · rw [mkdir_other fs _ q hq]
        exact ⟨rfl, List.prefix_refl _⟩
      · by_cases h3 : (createDirectories fs a).1.at? q = fs.at? q
        · rw [← h3] at hq
          rw [mkdir_other _ _ q hq]
          exact ⟨rfl, List.prefix_refl _⟩
        · by_cases hne : a = []
          · subst hne; exact absurd (by rw [hnil]) h3
          · obtain ⟨h4, h5⟩ := ih fs a (by simp at hl; omega) ha' q h3
            rw [place_cut a b hb]
            refine ⟨?_, h5.trans (List.prefix_append _ _)⟩
            rw [h4]
            cases a with
            | nil => exact absurd rfl hne
            | cons c a => rfl

/-! ### Files -/

theorem plain_names {p : Path} (h : plain p = true) : (place p).names ≠ [] := by
  simp only [plain, decide_eq_true_eq] at h
  have hne : cut p ≠ [] := by
    obtain ⟨h1, -⟩ := h
    cases p with
    | nil => exact absurd rfl h1
    | cons c p =>
      rw [cut]
      split
      · simp
      · split <;> simp
  have h2 := h.2 _ (List.getLast?_eq_some_getLast hne)
  intro he
  have hm : (cut p).getLast hne ∈ (place p).names := by
    unfold place
    rw [List.mem_filter]
    exact ⟨List.getLast_mem hne, by simpa using h2⟩
  rw [he] at hm
  cases hm

theorem files_created (d : Disk) (p : Path) : files { d with fs := (createDirectories d.fs p).1 } = files d := by
  funext q
  unfold files
  simp only
  rcases created_at d.fs p q with h | ⟨h1, h2⟩
  · rw [h]
  · rw [h1, h2]; rfl

theorem files_setText (d : Disk) (q : Place) (s : Str) (h : d.fs.at? q = some .file) : files (setText d q s) = setFile (files d) q (some s) := by
  funext q'
  unfold files setFile setText
  simp only
  by_cases e : q' = q
  · subst e; simp [h]
  · simp [e]

theorem openOut_spec {d : Disk} {deny app : Bool} {p : Path} {d2 : Disk} (h : openOut d deny app p = some d2) :
    plain p = true ∧ deny = false ∧ d2.fs.at? (place p) = some .file ∧
      d2.text (place p) = (if app then (files d (place p)).getD [] else []) ∧
      files d2 = setFile (files d) (place p) (some (d2.text (place p))) := by
  unfold openOut at h
  split at h
  · cases h
  next hc =>
  simp only [Bool.not_eq_true, not_or, Bool.not_eq_false] at hc
  refine ⟨hc.2, hc.1, ?_⟩
  split at h
  · next hk =>
    cases h
    cases app with
    | true =>
      simp only [if_true]
      refine ⟨hk, by simp [files, hk], ?_⟩
      funext q
      unfold setFile
      split
      · next e => subst e; simp [files, hk]
      · rfl
    | false =>
      simp only [Bool.false_eq_true, if_false]
      refine ⟨hk, by simp [setText], ?_⟩
      rw [files_setText d _ _ hk]
      simp [setText]
  · cases h
  · cases h
  · next hk =>
    split at h
    · cases h
      have hnn := plain_names hc.2
      have hat : ∀ q, (⟨fun q => if q = place p then some .file else d.fs.entry q⟩ : Fs).at? q = if q = place p then some .file else d.fs.at? q := by
        intro q
        unfold Fs.at?
        by_cases e : q = place p
        · subst e; simp [hnn]
        · simp [e]
      refine ⟨by simp only [setText]; rw [hat, if_pos rfl], by simp [setText, files, hk], ?_⟩
      rw [files_setText]
      · funext q
        unfold setFile
        by_cases e : q = place p
        · simp [e, setText]
        · simp only [if_neg e]
          unfold files
          simp only
          rw [hat, if_neg e]
      · simp only; rw [hat, if_pos rfl]
    · cases h

theorem putString_ok {d : Disk} {deny : Bool} {room : Nat} {app : Bool} {ec : Option ErrCode} {p : Path} {s : Str} {d2 : Disk}
    (h : openOut { d with fs := (createDirectories d.fs (Path.parentPath p)).1 } deny app p = some d2) :
    ∃ d', putString d deny room app ec p s = (.ok ⟨⟩, ec, d') ∧
      files d' = setFile (files d) (place p) (some ((if app then (files d (place p)).getD [] else []) ++ s.take room)) := by
  obtain ⟨h1, h2, h3, h4, h5⟩ := openOut_spec h
  refine ⟨_, by unfold putString; simp only; rw [h], ?_⟩
  rw [files_setText _ _ _ h3, h5, h4, files_created]
  funext q
  unfold setFile
  split <;> rfl

theorem putString_fail {d : Disk} {deny : Bool} {room : Nat} {app : Bool} {ec : Option ErrCode} {p : Path} {s : Str}
    (h : openOut { d with fs := (createDirectories d.fs (Path.parentPath p)).1 } deny app p = none) :
    putString d deny room app ec p s = ((report ec ("Could not open ".toList ++ p)).1, (report ec ("Could not open ".toList ++ p)).2,
      { d with fs := (createDirectories d.fs (Path.parentPath p)).1 }) := by
  unfold putString; simp only; rw [h]

/-- Nothing is in the way of writing a file: the directories above it are there or can be made, and it is a file or not there. -/
def Writable (d : Disk) (p : Path) : Prop :=
  '\\' ∉ p ∧ plain p = true ∧ Free d.fs (up (place p)) ∧ (d.fs.at? (place p) = some .file ∨ d.fs.at? (place p) = none)

theorem plain_last {a b : Str} (hb : '/' ∉ b) (h : plain (a ++ '/' :: b) = true) : good b = true := by
  simp only [plain, decide_eq_true_eq] at h
  have := h.2 b (by rw [cut_append, cut_noSlash b hb]; simp)
  simpa using this

theorem open_writable {d : Disk} {p : Path} (app : Bool) (h : Writable d p) :
    ∃ d2, openOut { d with fs := (createDirectories d.fs (Path.parentPath p)).1 } false app p = some d2 := by
  obtain ⟨hbs, hp, hfree, hk⟩ := h
  unfold openOut
  rw [if_neg (by simp [hp])]
  have hup : (createDirectories d.fs (Path.parentPath p)).1.at? (up (place p)) = some .dir := by
    rcases split_path p hbs with h1 | ⟨a, b, rfl, hb, ha', hb'⟩
    · have hpl : place p = ⟨p.head? = some '/', [p].filter good⟩ := by unfold place; rw [cut_noSlash p h1]
      have : (up (place p)).names = [] := by rw [up, hpl]; simp only [List.filter_cons]; split <;> rfl
      unfold Fs.at?; rw [if_pos this]
    · obtain ⟨h1, h2⟩ := parent_snoc a b (fun c hc => ⟨by rintro rfl; exact hb hc, by rintro rfl; exact hb' hc⟩)
      have hg := plain_last hb hp
      have hpl : up (place (a ++ '/' :: b)) = ⟨(a ++ ['/']).head? = some '/', (place a).names⟩ := by
        rw [up, place_cut a b hb]
        simp only [List.filter_cons, hg, if_true, List.filter_nil, List.dropLast_concat]
      rw [hpl] at hfree ⊢
      rw [h2]
      cases a with
      | nil => rfl
      | cons c a => exact created_dir _ d.fs (c :: a) (Nat.le_refl _) ha' hfree
  rcases created_at d.fs (Path.parentPath p) (place p) with h1 | ⟨h1, h2⟩
  · rcases hk with hk | hk
    · rw [hk] at h1
      simp only
      rw [h1]
      exact ⟨_, rfl⟩
    · rw [hk] at h1
      simp only
      rw [h1]
      simp only
      unfold up at hup
      rw [if_pos hup]
      exact ⟨_, rfl⟩
  · -- the file's own place is not made a directory
    exfalso
    have hne : (createDirectories d.fs (Path.parentPath p)).1.at? (place p) ≠ d.fs.at? (place p) := by rw [h1, h2]; simp
    rcases split_path p hbs with h3 | ⟨a, b, rfl, hb, ha', hb'⟩
    · have hpp : Path.parentPath p = [] := by
        have := parent_name p (fun c hc => ⟨by rintro rfl; exact h3 hc, by rintro rfl; exact hbs hc⟩)
        unfold Path.hasParentPath at this
        unfold Path.parentPath
        cases hl : Path.lastSep p with
        | none => rfl
        | some n => rw [hl] at this; cases this
      rw [hpp] at hne
      obtain ⟨-, h4⟩ := created_above 0 d.fs [] (Nat.le_refl _) (by simp) _ hne
      exact plain_names hp (List.prefix_nil.1 h4)
    · obtain ⟨-, h5⟩ := parent_snoc a b (fun c hc => ⟨by rintro rfl; exact hb hc, by rintro rfl; exact hb' hc⟩)
      rw [h5] at hne
      obtain ⟨-, h4⟩ := created_above _ d.fs a (Nat.le_refl _) ha' _ hne
      have h6 := h4.length_le
      have hg := plain_last hb hp
      rw [place_cut a b hb] at h6
      simp only [List.filter_cons, hg, if_true, List.filter_nil, List.length_append, List.length_singleton] at h6
      omega

/-- **C107.** What is loaded is the text of the file at the place of the path, however the path is written. If nothing is there, this is reported. -/
theorem C107_load_partial (d : Disk) (ec : Option ErrCode) (p : Path) (hp : plain p = true) :
    (∀ s, files d (place p) = some s → loadString d false ec p = (.ok s, ec)) ∧
      (d.fs.at? (place p) = none → Reports (loadString d false ec p) ec []) := by
  have hne : p ≠ [] := by simp only [plain, decide_eq_true_eq] at hp; exact hp.1
  constructor
  · intro s h
    unfold files at h
    split at h
    · next hk =>
      cases h
      unfold loadString source Fs.stat
      rw [if_neg hne, hk, hp]
      rfl
    · cases h
  · intro h
    unfold loadString source Fs.stat
    rw [if_neg hne, h]
    exact failWith_reports ec _ _

/-- **C107.** Saving to, or appending to, a file that nothing is in the way of: there is no error, exactly this file is changed, and everything else on
the disk is kept, up to directories that were made above the file. -/
theorem C107_save_partial (d : Disk) (p : Path) (h : Writable d p) (ec : Option ErrCode) (s : Str) (room : Nat) (hroom : s.length ≤ room) :
    (∃ d', saveString d false room ec p s = (.ok ⟨⟩, ec, d') ∧ files d' = setFile (files d) (place p) (some s)) ∧
      ∃ d', appendString d false room ec p s = (.ok ⟨⟩, ec, d') ∧ files d' = setFile (files d) (place p) (some ((files d (place p)).getD [] ++ s)) := by
  constructor
  · obtain ⟨d2, h2⟩ := open_writable false h
    obtain ⟨d', h3, h4⟩ := putString_ok (room := room) (ec := ec) (s := s) h2
    refine ⟨d', h3, ?_⟩
    rw [h4, List.take_of_length_le hroom]
    rfl
  · obtain ⟨d2, h2⟩ := open_writable true h
    obtain ⟨d', h3, h4⟩ := putString_ok (room := room) (ec := ec) (s := s) h2
    refine ⟨d', h3, ?_⟩
    rw [h4, List.take_of_length_le hroom]
    rfl

/-- **C107.** What was saved is what is loaded, under every path of the same place. -/
theorem C107_save_load_partial (d : Disk) (p p' : Path) (h : Writable d p) (hp' : plain p' = true) (he : place p' = place p)
    (ec ec' : Option ErrCode) (s : Str) (room : Nat) (hroom : s.length ≤ room) :
    loadString (saveString d false room ec p s).2.2 false ec' p' = (.ok s, ec') := by
  obtain ⟨d', h1, h2⟩ := (C107_save_partial d p h ec s room hroom).1
  rw [h1]
  exact (C107_load_partial d' ec' p' hp').1 s (by rw [h2, he]; simp [setFile])

/-- **C107.** Directories: `save_string` makes those above the file, and nothing else. -/
theorem C107_directories (d : Disk) (p : Path) (deny : Bool) (hp : '\\' ∉ p) (app : Bool) (ec : Option ErrCode) (s : Str) (room : Nat) (q : Place)
    (h : (putString d deny room app ec p s).2.2.fs.at? q ≠ d.fs.at? q) :
    q.names <+: (place p).names ∧ (q ≠ place p → q.abs = (place p).abs ∧ (putString d deny room app ec p s).2.2.fs.at? q = some .dir) := by
  have hpre : ∀ q, (createDirectories d.fs (Path.parentPath p)).1.at? q ≠ d.fs.at? q →
      q.abs = (place p).abs ∧ q.names <+: (place p).names ∧ (createDirectories d.fs (Path.parentPath p)).1.at? q = some .dir := by
    intro q hq
    have hdir : (createDirectories d.fs (Path.parentPath p)).1.at? q = some .dir := by
      rcases created_at d.fs (Path.parentPath p) q with h1 | ⟨h1, h2⟩
      · exact absurd h1 hq
      · exact h2
    rcases split_path p hp with h3 | ⟨a, b, rfl, hb, ha', hb'⟩
    · have hpp : Path.parentPath p = [] := by
        have := parent_name p (fun c hc => ⟨by rintro rfl; exact h3 hc, by rintro rfl; exact hp hc⟩)
        unfold Path.hasParentPath at this
        unfold Path.parentPath
        cases hl : Path.lastSep p with
        | none => rfl
        | some n => rw [hl] at this; cases this
      rw [hpp, createDirectories] at hq
      exact absurd (by simp [show Path.hasParentPath [] = false by decide, mkdir, canMkdir]) hq
    · obtain ⟨-, h5⟩ := parent_snoc a b (fun c hc => ⟨by rintro rfl; exact hb hc, by rintro rfl; exact hb' hc⟩)
      rw [h5] at hq hdir ⊢
      have hne : a ≠ [] := by
        rintro rfl
        rw [createDirectories] at hq
        exact absurd (by simp [show Path.hasParentPath [] = false by decide, mkdir, canMkdir]) hq
      obtain ⟨h6, h7⟩ := created_above _ d.fs a (Nat.le_refl _) ha' _ hq
      refine ⟨?_, ?_, hdir⟩
      · rw [place_cut a b hb, h6]
        cases a with
        | nil => exact absurd rfl hne
        | cons c a => rfl
      · rw [place_cut a b hb]; exact h7.trans (List.prefix_append _ _)
  cases ho : openOut { d with fs := (createDirectories d.fs (Path.parentPath p)).1 } deny app p with
  | none =>
    rw [putString_fail ho] at h ⊢
    obtain ⟨h1, h2, h3⟩ := hpre q h
    exact ⟨h2, fun _ => ⟨h1, h3⟩⟩
  | some d2 =>
    have e : (putString d deny room app ec p s).2.2.fs = d2.fs := by unfold putString; simp only; rw [ho]; rfl
    rw [e] at h ⊢
    have hd2 : ∀ q, q ≠ place p → d2.fs.at? q = (createDirectories d.fs (Path.parentPath p)).1.at? q := by
      intro q hq
      unfold openOut at ho
      split at ho
      · cases ho
      split at ho
      · cases ho; cases app <;> rfl
      · cases ho
      · cases ho
      · split at ho
        · cases ho
          unfold setText Fs.at?
          simp [hq]
        · cases ho
    by_cases hq : q = place p
    · subst hq; exact ⟨List.prefix_refl _, fun h => absurd rfl h⟩
    · rw [hd2 q hq] at h ⊢
      obtain ⟨h1, h2, h3⟩ := hpre q h
      exact ⟨h2, fun _ => ⟨h1, h3⟩⟩

/-- **C107.** A file that cannot be opened is reported as an error; no text is changed. -/
theorem C107_save_errors (d : Disk) (deny : Bool) (room : Nat) (app : Bool) (ec : Option ErrCode) (p : Path) (s : Str)
    (h : deny = true ∨ plain p = false ∨ d.fs.at? (place p) = some .dir ∨ d.fs.at? (place p) = some .special) :
    Reports ((putString d deny room app ec p s).1, (putString d deny room app ec p s).2.1) ec ⟨⟩ ∧ files (putString d deny room app ec p s).2.2 = files d := by
  have ho : openOut { d with fs := (createDirectories d.fs (Path.parentPath p)).1 } deny app p = none := by
    unfold openOut
    split
    · rfl
    next hc =>
    simp only [Bool.not_eq_true, not_or, Bool.not_eq_false] at hc
    have hk : (createDirectories d.fs (Path.parentPath p)).1.at? (place p) = d.fs.at? (place p) := by
      rcases created_at d.fs (Path.parentPath p) (place p) with h1 | ⟨h1, h2⟩
      · exact h1
      · rcases h with h | h | h | h
        · rw [hc.1] at h; cases h
        · rw [hc.2] at h; cases h
        · rw [h1] at h; cases h
        · rw [h1] at h; cases h
    simp only
    rw [hk]
    rcases h with h | h | h | h
    · rw [hc.1] at h; cases h
    · rw [hc.2] at h; cases h
    · rw [h]
    · rw [h]
  rw [putString_fail ho]
  refine ⟨?_, files_created d _⟩
  cases ec with
  | none => rfl
  | some e => exact ⟨rfl, _, rfl, by simp [ErrCode.set]⟩

/-! ### Histories -/

/-- One call, on a disk that does not become full. -/
def exec (d : Disk) (ev : Event) : Disk × Bool :=
  let ec : Option ErrCode := if ev.throws then none else some ⟨0, []⟩
  match ev.op with
  | .save p s => let r := saveString d ev.deny s.length ec p s
    (r.2.2, noError r.1 r.2.1)
  | .append p s => let r := appendString d ev.deny s.length ec p s
    (r.2.2, noError r.1 r.2.1)
  | .remove p => remove d ev.deny ev.isEmpty p
  | .copy src dst ow => let r := copyFile d ev.deny (d.text (place src)).length src dst ow ⟨ev.code + 1, []⟩ ec
    (r.2.2, noError r.1 r.2.1)

def execAll (d : Disk) : List Event → Disk × List (Op × Bool)
  | [] => (d, [])
  | ev :: evs => let r := exec d ev
    let rs := execAll r.1 evs
    (rs.1, (ev.op, r.2) :: rs.2)

theorem exec_put (d : Disk) (deny app throws : Bool) (p : Path) (s : Str) :
    let ec : Option ErrCode := if throws then none else some ⟨0, []⟩
    let r := putString d deny s.length app ec p s
    files r.2.2 = if noError r.1 r.2.1 then setFile (files d) (place p) (some ((if app then (files d (place p)).getD [] else []) ++ s)) else files d := by
  intro ec r
  cases ho : openOut { d with fs := (createDirectories d.fs (Path.parentPath p)).1 } deny app p with
  | none =>
    have e : r = _ := putString_fail (ec := ec) (room := s.length) (s := s) ho
    have : noError r.1 r.2.1 = false := by
      rw [e]
      show noError (report (if throws then none else some ⟨0, []⟩) _).1 (report (if throws then none else some ⟨0, []⟩) _).2 = false
      cases throws <;> rfl
    rw [this, e]
    exact files_created d _
  | some d2 =>
    obtain ⟨d', h3, h4⟩ := putString_ok (room := s.length) (ec := ec) (s := s) ho
    have e : r = (.ok ⟨⟩, ec, d') := h3
    have : noError r.1 r.2.1 = true := by
      rw [e]
      show noError (.ok _) (if throws then none else some ⟨0, []⟩) = true
      cases throws <;> rfl
    rw [this, e, if_pos rfl]
    simp only
    rw [h4, List.take_length]

theorem drop_files (d : Disk) (q : Place) (h : q.names ≠ []) : files (drop d q) = setFile (files d) q none := by
  funext q'
  unfold files setFile drop Fs.at?
  by_cases e : q' = q
  · subst e; simp [h]
  · simp [e]

theorem setFile_same (m : Place → Option Str) (q : Place) (v : Option Str) (h : m q = v) : setFile m q v = m := by
  funext q'
  unfold setFile
  split
  · next e => rw [e, h]
  · rfl

theorem remove_files (d : Disk) (deny isEmpty : Bool) (p : Path) :
    files (remove d deny isEmpty p).1 = if (remove d deny isEmpty p).2 then setFile (files d) (place p) none else files d := by
  unfold remove
  split
  · rfl
  split
  · split
    · next h => exact drop_files d _ (plain_names h)
    · rfl
  · split
    · next h => exact drop_files d _ (plain_names h.1)
    · rfl
  · split
    · next h => exact drop_files d _ (plain_names h)
    · rfl
  · rfl

theorem copy_files (d : Disk) (deny : Bool) (src dst : Path) (ow : Bool) (room : Nat) (hroom : (d.text (place src)).length ≤ room) :
    files (stdCopy d deny room src dst ow).1 =
      if (stdCopy d deny room src dst ow).2 then setFile (files d) (place dst) (files d (place src)) else files d := by
  unfold stdCopy
  split
  · rfl
  next hc =>
  simp only [Bool.not_eq_true, not_or, Bool.not_eq_false] at hc
  split
  · next hk =>
    split
    · rfl
    · cases ho : openOut d false false dst with
      | none => rfl
      | some d2 =>
        obtain ⟨h1, h2, h3, h4, h5⟩ := openOut_spec ho
        simp only [hroom, decide_true, if_true]
        rw [files_setText _ _ _ h3, h5, List.take_of_length_le hroom]
        have hs : files d (place src) = some (d.text (place src)) := by
          unfold Fs.stat at hk
          split at hk
          · cases hk
          · unfold files; rw [if_pos hk]
        rw [hs]
        funext q
        unfold setFile
        split <;> rfl
  · rfl

theorem exec_files (d : Disk) (ev : Event) : files (exec d ev).1 = if (exec d ev).2 then effect (files d) ev.op else files d := by
  unfold exec
  cases ev with
  | mk op deny isEmpty throws code =>
  cases op with
  | save p s => exact exec_put d deny false throws p s
  | append p s => exact exec_put d deny true throws p s
  | remove p => exact remove_files d deny isEmpty p
  | copy src dst ow =>
    have h := copy_files d deny src dst ow _ (Nat.le_refl _)
    cases hr : stdCopy d deny (d.text (place src)).length src dst ow with
    | mk d' ok =>
    rw [hr] at h
    simp only [copyFile, hr, effect]
    cases ok <;> cases throws
    · have e : ((code : Int) + 1 = 0) = False := by simp; omega
      simpa [noError, ErrCode.set, e] using h
    · simpa [noError] using h
    · simpa [noError] using h
    · simpa [noError] using h

/-- **C107.** After any sequence of saving, appending, removing and copying, the files are those that the successful calls give; a call that reports an
error changes no file. -/
theorem C107_history (evs : List Event) : ∀ d, files (execAll d evs).1 = after (files d) (execAll d evs).2 := by
  induction evs with
  | nil => intro d; rfl
  | cons ev evs ih =>
    intro d
    simp only [execAll, after]
    rw [ih, exec_files]

/-- **C107.** Removing a file or a copy: when they succeed. -/
theorem C107_remove (d : Disk) (p : Path) (hp : plain p = true) (b : Bool) (h : d.fs.at? (place p) = some .file) (ec : Option ErrCode) :
    (remove d false b p).2 = true ∧ Reports (loadString (remove d false b p).1 false ec p) ec [] := by
  have hne : p ≠ [] := by simp only [plain, decide_eq_true_eq] at hp; exact hp.1
  have e : remove d false b p = (drop d (place p), true) := by
    unfold remove Fs.stat
    rw [if_neg hne, h]
    simp [hp]
  rw [e]
  refine ⟨rfl, (C107_load_partial _ ec p hp).2 ?_⟩
  unfold drop Fs.at?
  simp [plain_names hp]

/-- **C107.** A copy succeeds if its place is free, or if it may be overwritten and is another file. Otherwise an error is reported, and nothing
changes. -/
theorem C107_copy (d : Disk) (src dst : Path) (hs : plain src = true) (hd : plain dst = true) (hf : d.fs.at? (place src) = some .file) (ow : Bool)
    (room : Nat) (hroom : (d.text (place src)).length ≤ room) (e : ErrCode) (ec : Option ErrCode) :
    (d.fs.at? (place dst) = none → d.fs.at? (up (place dst)) = some .dir → (copyFile d false room src dst ow e ec).1 = .ok true) ∧
    (d.fs.at? (place dst) = none → d.fs.at? (up (place dst)) ≠ some .dir → (copyFile d false room src dst ow e ec).1 ≠ .ok true ∧
      (copyFile d false room src dst ow e ec).2.2 = d) ∧
    (d.fs.at? (place dst) = some .file → ow = true → place src ≠ place dst → (copyFile d false room src dst ow e ec).1 = .ok true) ∧
    ((d.fs.at? (place dst)).isSome → ow = false ∨ place src = place dst → (copyFile d false room src dst ow e ec).1 ≠ .ok true ∧
      (copyFile d false room src dst ow e ec).2.2 = d) := by
  have hsn : src ≠ [] := by simp only [plain, decide_eq_true_eq] at hs; exact hs.1
  have hdn : dst ≠ [] := by simp only [plain, decide_eq_true_eq] at hd; exact hd.1
  have hss : d.fs.stat src = some .file := by unfold Fs.stat; rw [if_neg hsn]; exact hf
  have hsd : d.fs.stat dst = d.fs.at? (place dst) := by unfold Fs.stat; rw [if_neg hdn]
  have key : stdCopy d false room src dst ow =
      if (d.fs.at? (place dst)).isSome ∧ (ow = false ∨ place src = place dst) then (d, false)
      else match openOut d false false dst with
        | some d2 => (setText d2 (place dst) ((d.text (place src)).take room), true)
        | none => (d, false) := by
    unfold stdCopy
    rw [if_neg (by simp [hs]), hss, hsd]
    simp only [hroom, decide_true]
    rfl
  have hopen : openOut d false false dst = match d.fs.at? (place dst) with
      | some .file => some (setText d (place dst) [])
      | some .dir => none
      | some .special => none
      | none =>
        if d.fs.at? (up (place dst)) = some .dir then
          some (setText { d with fs := ⟨fun q => if q = place dst then some .file else d.fs.entry q⟩ } (place dst) [])
        else none := by
    unfold openOut
    rw [if_neg (by simp [hd])]
    rfl
  have good : (stdCopy d false room src dst ow).2 = true → (copyFile d false room src dst ow e ec).1 = .ok true := by
    intro h
    unfold copyFile
    cases hr : stdCopy d false room src dst ow with
    | mk d2 ok => rw [hr] at h; simp only at h; subst h; rfl
  have bad : stdCopy d false room src dst ow = (d, false) → (copyFile d false room src dst ow e ec).1 ≠ .ok true ∧
      (copyFile d false room src dst ow e ec).2.2 = d := by
    intro h
    unfold copyFile
    rw [h]
    cases ec <;> simp
  refine ⟨fun h1 h2 => ?_, fun h1 h2 => ?_, fun h1 h2 h3 => ?_, fun h1 h2 => ?_⟩
  · refine good ?_
    rw [key, hopen, h1]
    simp [h2]
  · refine bad (key.trans ?_)
    rw [hopen, h1]
    simp [h2]
  · refine good ?_
    rw [key, hopen, h1]
    simp [h2, h3]
  · refine bad (key.trans ?_)
    rw [if_pos ⟨h1, h2⟩]

/-! ### Where the code differs -/

/-- **C107, violated.** A disk that is full: only the beginning of the text is in the file, and no error is reported. The same is left by a program that
ends after the file was opened: the text that was there is lost. -/
theorem C107_full_violated (d : Disk) (p : Path) (h : Writable d p) (ec : Option ErrCode) (s : Str) (room : Nat) (hroom : room < s.length) :
    ∃ d', saveString d false room ec p s = (.ok ⟨⟩, ec, d') ∧ files d' (place p) = some (s.take room) ∧ s.take room ≠ s := by
  obtain ⟨d2, h2⟩ := open_writable false h
  obtain ⟨d', h3, h4⟩ := putString_ok (room := room) (ec := ec) (s := s) h2
  refine ⟨d', h3, by rw [h4]; simp [setFile], fun e => ?_⟩
  have := congrArg List.length e
  simp at this
  omega

/-- **C107, violated.** A directory is loaded as an empty text, without an error. -/
theorem C107_directory_violated (d : Disk) (p : Path) (ec : Option ErrCode) (h : d.fs.stat p = some .dir) : loadString d false ec p = (.ok [], ec) := by
  unfold loadString source
  rw [h]
  rfl

/-- **C107, violated.** A backslash separates names for `parent_path`, but not for the system: the directory is made, and the file is put beside it. -/
theorem C107_backslash_violated (a b : Str) (ha : '/' ∉ a ∧ '\\' ∉ a ∧ a ≠ [] ∧ a ≠ ['.']) (hb : '/' ∉ b ∧ '\\' ∉ b) (ec : Option ErrCode) (s : Str) :
    ∃ d', saveString ⟨⟨fun _ => none⟩, fun _ => []⟩ false s.length ec (a ++ '\\' :: b) s = (.ok ⟨⟩, ec, d') ∧
      d'.fs.at? ⟨false, [a]⟩ = some .dir ∧ files d' ⟨false, [a ++ '\\' :: b]⟩ = some s ∧ d'.fs.at? ⟨false, [a, b]⟩ = none := by
  have hc : Xo.Spec.Component (a ++ '\\' :: b) (a ++ ['\\']) b :=
    ⟨by simp, fun c hc => ⟨by rintro rfl; exact hb.1 hc, by rintro rfl; exact hb.2 hc⟩, Or.inr ⟨a, Or.inr rfl⟩⟩
  have hpar : Path.parentPath (a ++ '\\' :: b) = a := by rw [C32_parent _ _ _ hc]; simp
  have hns : '/' ∉ a ++ '\\' :: b := by simp [ha.1, hb.1]
  have hcut := cut_noSlash _ hns
  have hne : a ++ '\\' :: b ≠ [] := by simp
  have hdot : a ++ '\\' :: b ≠ ['.'] := by
    intro e
    have := congrArg List.length e
    have h0 := List.length_pos_iff.2 ha.2.2.1
    simp at this
    omega
  have hpl : place (a ++ '\\' :: b) = ⟨false, [a ++ '\\' :: b]⟩ := by
    unfold place
    rw [hcut]
    have hh : (a ++ '\\' :: b).head? ≠ some '/' := by
      intro e
      exact hns (List.mem_of_mem_head? e)
    rw [List.filter_cons, if_pos (by simp [hdot]), List.filter_nil]
    simp only [hh, decide_false]
  have hpa : place a = ⟨false, [a]⟩ := by
    unfold place
    rw [cut_noSlash a ha.1]
    have hh : a.head? ≠ some '/' := by
      intro e
      exact ha.1 (List.mem_of_mem_head? e)
    simp [hh, ha.2.2.1, ha.2.2.2]
  have hplain : plain (a ++ '\\' :: b) = true := by
    simp only [plain, decide_eq_true_eq, hcut]
    exact ⟨hne, by rintro n ⟨⟩; exact ⟨hne, hdot⟩⟩
  have hcd : (createDirectories ⟨fun _ => none⟩ a).1 = Fs.add ⟨fun _ => none⟩ a := by
    have hnp : Path.hasParentPath a = false := parent_name a (fun c hc => ⟨by rintro rfl; exact ha.1 hc, by rintro rfl; exact ha.2.1 hc⟩)
    rw [createDirectories]
    simp only [hnp, Bool.false_eq_true, dite_false]
    unfold mkdir
    rw [if_pos ⟨by simp [canMkdir, hpa, ha.2.2.1, Fs.at?], rfl⟩]
  have hab : a ≠ a ++ '\\' :: b := by
    intro e
    have := congrArg List.length e
    simp at this
  have hat : (Fs.add ⟨fun _ => none⟩ a).at? (place (a ++ '\\' :: b)) = none := by
    rw [hpl, add_at _ _ _ (by rw [hpa]; simp), hpa, if_neg (by simpa using Ne.symm hab)]
    rfl
  have ho : openOut ⟨(createDirectories ⟨fun _ => none⟩ (Path.parentPath (a ++ '\\' :: b))).1, fun _ => []⟩ false false (a ++ '\\' :: b) =
      some (setText ⟨⟨fun q => if q = place (a ++ '\\' :: b) then some .file else (Fs.add ⟨fun _ => none⟩ a).entry q⟩, fun _ => []⟩
        (place (a ++ '\\' :: b)) []) := by
    rw [hpar, hcd]
    unfold openOut
    rw [if_neg (by simp [hplain])]
    simp only
    rw [hat]
    simp only
    rw [if_pos (by rw [hpl]; rfl)]
  refine ⟨_, by unfold saveString putString; simp only; rw [ho], ?_, ?_, ?_⟩
  · simp [setText, Fs.at?, Fs.add, hpl, hpa]
  · simp [files, setText, Fs.at?, hpl]
  · simp [setText, Fs.at?, Fs.add, hpl, hpa]

/-! ### Cases -/

/-- **C107.** A copy that the disk has no room for reports an error. -/
theorem C107_copy_full (d : Disk) (deny : Bool) (src dst : Path) (ow : Bool) (room : Nat) (hroom : room < (d.text (place src)).length)
    (e : ErrCode) (ec : Option ErrCode) : (copyFile d deny room src dst ow e ec).1 ≠ .ok true := by
  have key : (stdCopy d deny room src dst ow).2 = false := by
    unfold stdCopy
    split
    · rfl
    · split
      · split
        · rfl
        · cases openOut d false false dst with
          | none => rfl
          | some d2 => simpa using hroom
      · rfl
  unfold copyFile
  cases hr : stdCopy d deny room src dst ow with
  | mk d' ok =>
    rw [hr] at key
    simp only at key
    subst key
    cases ec <;> simp

/-- A file in a directory that is not there yet. -/
example : Writable ⟨⟨fun _ => none⟩, fun _ => []⟩ "a/b/c.txt".toList := by
  refine ⟨by decide, by decide, ?_, Or.inr rfl⟩
  intro ns _
  by_cases h : ns = []
  · subst h; exact Or.inl rfl
  · exact Or.inr (by simp [Fs.at?, h])

/-- Two calls, of which the second adds to the file. -/
example : (execAll ⟨⟨fun _ => none⟩, fun _ => []⟩ [⟨.save "f".toList "x".toList, false, false, true, 0⟩, ⟨.append "./f".toList "y".toList, false, false, false, 0⟩,
    ⟨.copy "f".toList "g".toList false, false, false, true, 0⟩, ⟨.remove "f".toList, false, false, true, 0⟩]).2.map Prod.snd = [true, true, true, true] := by
  decide +kernel

end Xo.TextF
