import Verif.Model.FileSearch
import Verif.Props.C32_Path

/-!
C105: searching for files.
-/
namespace Xo.Search
open Xo Xo.Spec

namespace Spec
/-- A file in a directory: a slash between them unless the directory ends in a separator or colon. -/
def joined (d f : Path) : Path :=
  match d.getLast? with
  | none => f
  | some c => if c ∈ ['/', '\\', ':'] then d ++ f else d ++ '/' :: f.dropWhile (· ∈ ['/', '\\'])

/-- Where a path is looked for: absolute paths where they are, others in the current folder. -/
def resolve (cur f : Path) : Path := if f.isAbsolute then f else joined cur f

/-- `r` is the first of the candidates that exists. -/
def First (ex : Path → Bool) (cands : List Path) (r : Path) : Prop :=
  ∃ pre post, cands = pre ++ r :: post ∧ ex r = true ∧ ∀ c ∈ pre, ex c = false

/-- None of the candidates exists. -/
def NoneOf (ex : Path → Bool) (cands : List Path) : Prop := ∀ c ∈ cands, ex c = false

/-- The directory contains an entry at these names, one below the other. -/
inductive Has : Listing → List Str → Prop
  | file {n : Str} {r : Listing} : Has (.file n r) [n]
  | dir {n : Str} {es r : Listing} : Has (.dir n es r) [n]
  | inside {n : Str} {es r : Listing} {p : List Str} : Has es p → Has (.dir n es r) (n :: p)
  | afterFile {n : Str} {r : Listing} {p : List Str} : Has r p → Has (.file n r) p
  | afterDir {n : Str} {es r : Listing} {p : List Str} : Has r p → Has (.dir n es r) p

/-- The path of the entry at these names. -/
def pathTo (d : Path) (p : List Str) : Path := p.foldl entryPath d

/-- The names in the directory. -/
def top : Listing → List Str
  | .nil => []
  | .file n r => n :: top r
  | .dir n _ r => n :: top r

/-- Names are not empty and have no slash, and those in one directory are different. -/
def Proper : Listing → Prop
  | .nil => True
  | .file n r => n ≠ [] ∧ '/' ∉ n ∧ n ∉ top r ∧ Proper r
  | .dir n es r => n ≠ [] ∧ '/' ∉ n ∧ n ∉ top r ∧ Proper es ∧ Proper r

/-- The entry may be looked at: `levels` directories below the first one, any number if it is negative, and none without `recursive`. -/
def Reached (recursive : Bool) (levels : Int) (p : List Str) : Prop :=
  p.length = 1 ∨ (recursive = true ∧ (levels < 0 ∨ (p.length : Int) ≤ levels + 1))
end Spec
open Spec

/-! ### Candidates -/

theorem dropWhile_seps (f : Str) : trimLeftStr Path.seps f = .ok (f.dropWhile (· ∈ ['/', '\\'])) := by
  obtain ⟨l, m, h1, h2, h3, h4⟩ := C26_trim_left Path.seps f
  rw [h1, h2]
  congr 1
  have h3' : ∀ c ∈ l, (decide (c ∈ ['/', '\\'])) = true := fun c hc => by simpa [Path.seps] using h3 c hc
  clear h1 h2 h3
  induction l with
  | nil =>
    cases m with
    | nil => rfl
    | cons c m =>
      have := h4 c rfl
      rw [List.nil_append, List.dropWhile_cons_of_neg]
      simpa [Path.seps] using this
  | cons c l ih =>
    rw [List.cons_append, List.dropWhile_cons, if_pos (h3' c (by simp))]
    exact ih fun c hc => h3' c (List.mem_cons_of_mem _ hc)

theorem slash_joined (d f : Path) : d.slash f = .ok (joined d f) := by
  unfold Path.slash joined
  rcases List.eq_nil_or_concat d with rfl | ⟨b, c, rfl⟩
  · rfl
  · rw [List.concat_eq_append, List.getLast?_append_of_ne_nil _ (by simp)]
    simp only [List.getLast?_singleton]
    by_cases hc : c ∈ ['/', '\\', ':']
    · rw [if_neg, if_pos hc]
      rw [hasFilename_iff]
      rintro ⟨b', c', e, h1, h2, h3⟩
      obtain ⟨-, e⟩ := List.append_inj' e rfl
      simp only [List.cons.injEq, and_true] at e
      subst e
      simp [h1, h2, h3] at hc
    · rw [if_pos, if_neg hc, dropWhile_seps]
      · rfl
      · rw [hasFilename_iff]
        simp only [List.mem_cons, List.not_mem_nil, or_false, not_or] at hc
        exact ⟨b, c, rfl, hc⟩

theorem first_cons {ex : Path → Bool} {c : Path} {cs : List Path} (h : ex c = true) : First ex (c :: cs) c :=
  ⟨[], cs, rfl, h, by simp⟩

theorem first_skip {ex : Path → Bool} {c r : Path} {cs : List Path} (h : ex c = false) (hf : First ex cs r) : First ex (c :: cs) r := by
  obtain ⟨pre, post, rfl, h1, h2⟩ := hf
  refine ⟨c :: pre, post, rfl, h1, ?_⟩
  intro x hx
  rcases List.mem_cons.1 hx with rfl | hx
  · exact h
  · exact h2 x hx

/-- **C105.** `try_find_file` finds the first of the paths that exists, absolute ones where they are and others in the current folder. -/
theorem C105_try_find (ex : Path → Bool) (cur : Path) (fs : List Path) :
    (∃ r, tryFindFile ex cur fs = .ok (some r) ∧ First ex (fs.map (resolve cur)) r) ∨
      (tryFindFile ex cur fs = .ok none ∧ NoneOf ex (fs.map (resolve cur))) := by
  induction fs with
  | nil => exact Or.inr ⟨rfl, by simp [NoneOf]⟩
  | cons f fs ih =>
    have hstep : tryFindFile ex cur (f :: fs) = if ex (resolve cur f) then .ok (some (resolve cur f)) else tryFindFile ex cur fs := by
      simp only [tryFindFile, resolve]
      by_cases ha : f.isAbsolute = true
      · simp [ha]
      · simp [ha, slash_joined, Res.bind]
    rw [hstep, List.map_cons]
    cases he : ex (resolve cur f) with
    | true => exact Or.inl ⟨_, by simp, first_cons he⟩
    | false =>
      simp only [Bool.false_eq_true, if_false]
      rcases ih with ⟨r, h1, h2⟩ | ⟨h1, h2⟩
      · exact Or.inl ⟨r, h1, first_skip he h2⟩
      · refine Or.inr ⟨h1, ?_⟩
        intro c hc
        rcases List.mem_cons.1 hc with rfl | hc
        · exact he
        · exact h2 c hc

/-- **C105.** `find_file` gives the same path, or an error if there is none, when absolute paths do not exist in the current folder. In general it
also looks there for absolute paths. -/
theorem C105_find_partial (ex : Path → Bool) (cur : Path) (fs : List Path) (h : ∀ f ∈ fs, f.isAbsolute = true → ex (joined cur f) = false) :
    (∃ r, findFile ex cur fs = .ok r ∧ First ex (fs.map (resolve cur)) r) ∨ (findFile ex cur fs = .err ∧ NoneOf ex (fs.map (resolve cur))) := by
  induction fs with
  | nil => exact Or.inr ⟨rfl, by simp [NoneOf]⟩
  | cons f fs ih =>
    have hstep : findFile ex cur (f :: fs) = if ex (resolve cur f) then .ok (resolve cur f) else findFile ex cur fs := by
      simp only [findFile, resolve]
      by_cases ha : f.isAbsolute = true
      · have := h f (by simp) ha
        cases hf : ex f <;> simp [ha, hf, slash_joined, Res.bind, this]
      · simp [ha, slash_joined, Res.bind]
    rw [hstep, List.map_cons]
    cases he : ex (resolve cur f) with
    | true => exact Or.inl ⟨_, by simp, first_cons he⟩
    | false =>
      simp only [Bool.false_eq_true, if_false]
      rcases ih fun g hg => h g (List.mem_cons_of_mem _ hg) with ⟨r, h1, h2⟩ | ⟨h1, h2⟩
      · exact Or.inl ⟨r, h1, first_skip he h2⟩
      · refine Or.inr ⟨h1, ?_⟩
        intro c hc
        rcases List.mem_cons.1 hc with rfl | hc
        · exact he
        · exact h2 c hc

/-- **C105, violated.** An absolute path that does not exist is found when there is such a file in the current folder. -/
theorem C105_absolute_violated (ex : Path → Bool) (cur f : Path) (ha : f.isAbsolute = true) (hf : ex f = false) (hj : ex (joined cur f) = true) :
    findFile ex cur [f] = .ok (joined cur f) ∧ tryFindFile ex cur [f] = .ok none := by
  simp [findFile, tryFindFile, ha, hf, hj, slash_joined, Res.bind]

/-! ### Search folders -/

theorem searchDirs_spec (ex : Path → Bool) (file : Path) (dirs : List Path) :
    (∃ r, searchDirs ex file dirs = .ok (some r) ∧ First ex (dirs.map fun d => joined d file) r) ∨
      (searchDirs ex file dirs = .ok none ∧ NoneOf ex (dirs.map fun d => joined d file)) := by
  induction dirs with
  | nil => exact Or.inr ⟨rfl, by simp [NoneOf]⟩
  | cons d dirs ih =>
    simp only [searchDirs, slash_joined, Res.bind, List.map_cons]
    cases he : ex (joined d file) with
    | true => exact Or.inl ⟨_, by simp, first_cons he⟩
    | false =>
      simp only [Bool.false_eq_true, if_false]
      rcases ih with ⟨r, h1, h2⟩ | ⟨h1, h2⟩
      · exact Or.inl ⟨r, h1, first_skip he h2⟩
      · refine Or.inr ⟨h1, ?_⟩
        intro c hc
        rcases List.mem_cons.1 hc with rfl | hc
        · exact he
        · exact h2 c hc

/-- **C105.** `try_find_file` with folders: an absolute path that exists is found; otherwise the path, or the name of an absolute one, is
looked for in the folders, one after the other. The name of an absolute path must not look absolute. -/
theorem C105_search_partial (ex : Path → Bool) (dirs : List Path) (file : Path) (fuel : Nat) (hf : 2 ≤ fuel)
    (h : file.isAbsolute = true → ex file = false → file.filename.isAbsolute = false) :
    ∃ r, tryFindIn ex dirs fuel file = some (.ok r) ∧
      (if file.isAbsolute = true ∧ ex file = true then r = some file
       else match r with
        | some x => First ex (dirs.map fun d => joined d (if file.isAbsolute then file.filename else file)) x
        | none => NoneOf ex (dirs.map fun d => joined d (if file.isAbsolute then file.filename else file))) := by
  obtain ⟨fuel, rfl⟩ : ∃ n, fuel = n + 2 := ⟨fuel - 2, by omega⟩
  rw [tryFindIn]
  cases ha : file.isAbsolute with
  | false =>
    simp only [Bool.false_eq_true, if_false, false_and]
    rcases searchDirs_spec ex file dirs with ⟨r, h1, h2⟩ | ⟨h1, h2⟩
    · exact ⟨some r, by rw [h1], h2⟩
    · exact ⟨none, by rw [h1], h2⟩
  | true =>
    simp only [if_true, true_and]
    cases he : ex file with
    | true => exact ⟨some file, by simp, by simp⟩
    | false =>
      have hn := h ha he
      simp only [Bool.false_eq_true, if_false, tryFindIn, hn]
      rcases searchDirs_spec ex file.filename dirs with ⟨r, h1, h2⟩ | ⟨h1, h2⟩
      · exact ⟨some r, by rw [h1], h2⟩
      · exact ⟨none, by rw [h1], h2⟩

theorem filename_idem (p : Path) : p.filename.filename = p.filename := by
  have hno : Path.lastSep p.filename = none := by
    unfold Path.filename
    cases hl : Path.lastSep p with
    | none => exact hl
    | some n =>
      simp only
      obtain ⟨a, c, b, rfl, h1, h2, h3⟩ := findLastIdx_split hl
      have e : (a ++ c :: b).drop (n + 1) = b := by rw [← h1]; simp
      rw [e]
      unfold Path.lastSep findLastOf findLastIdx
      rw [List.findIdx?_eq_none_iff.2 (by simpa using h3)]
      rfl
  have hdef : ∀ q : Path, Path.lastSep q = none → q.filename = q := by
    intro q hq
    unfold Path.filename
    rw [hq]
  exact hdef _ hno

/-- **C105, violated.** The search never ends for an absolute path that does not exist and whose name starts with `~` or has a colon. -/
theorem C105_search_violated (ex : Path → Bool) (dirs : List Path) (file : Path) (ha : file.isAbsolute = true) (he : ex file = false)
    (hn : file.filename.isAbsolute = true) (hne : ex file.filename = false) (fuel : Nat) : tryFindIn ex dirs fuel file = none := by
  have key : ∀ fuel, tryFindIn ex dirs fuel file.filename = none := by
    intro fuel
    induction fuel with
    | zero => rfl
    | succ fuel ih =>
      rw [tryFindIn, if_pos hn, if_neg (by simp [hne]), filename_idem]
      exact ih
  cases fuel with
  | zero => rfl
  | succ fuel =>
    rw [tryFindIn, if_pos ha, if_neg (by simp [he])]
    exact key fuel

/-! ### Listing files -/

theorem has_top {t : Listing} {p : List Str} (h : Has t p) : ∃ n q, p = n :: q ∧ n ∈ top t := by
  induction h with
  | file => exact ⟨_, [], rfl, by simp [top]⟩
  | dir => exact ⟨_, [], rfl, by simp [top]⟩
  | inside _ ih => exact ⟨_, _, rfl, by simp [top]⟩
  | afterFile _ ih => obtain ⟨n, q, e, h⟩ := ih; exact ⟨n, q, e, by simp [top, h]⟩
  | afterDir _ ih => obtain ⟨n, q, e, h⟩ := ih; exact ⟨n, q, e, by simp [top, h]⟩

theorem pathTo_cons (d : Path) (n : Str) (p : List Str) : pathTo d (n :: p) = pathTo (entryPath d n) p := rfl

theorem has_ne_nil {t : Listing} {p : List Str} (h : Has t p) : p ≠ [] := by
  induction h <;> simp_all

/-- **C105.** With `exclude` the result is that for the names that are included and not excluded. -/
theorem C105_exclude (inc exc : Str → Bool) (recursive : Bool) (t : Listing) :
    ∀ lv d, findFilesEx inc exc recursive lv d t = findFiles (fun n => inc n && !exc n) recursive lv d t := by
  induction t with
  | nil => intro lv d; rfl
  | file n r ih => intro lv d; simp only [findFilesEx, findFiles, ih]
  | dir n es r ihe ihr => intro lv d; simp only [findFilesEx, findFiles, ihe, ihr]

/-- **C105.** `find_files` gives exactly the entries within the levels whose name matches. -/
theorem C105_find_files (inc : Str → Bool) (recursive : Bool) (t : Listing) : ∀ (lv : Int) (d f : Path),
    f ∈ findFiles inc recursive lv d t ↔
      ∃ p name, Has t (p ++ [name]) ∧ f = pathTo d (p ++ [name]) ∧ inc name = true ∧ Reached recursive lv (p ++ [name]) := by
  induction t with
  | nil =>
    intro lv d f
    simp only [findFiles, List.not_mem_nil, false_iff]
    rintro ⟨p, name, h, -⟩
    cases h
  | file n r ih =>
    intro lv d f
    simp only [findFiles, List.mem_append, ih]
    constructor
    · rintro (h | ⟨p, name, h1, h2⟩)
      · split at h
        · next hi =>
          rw [List.mem_singleton] at h
          exact ⟨[], n, .file, h, hi, Or.inl rfl⟩
        · cases h
      · exact ⟨p, name, .afterFile h1, h2⟩
    · rintro ⟨p, name, h1, h2, h3, h4⟩
      generalize hq : p ++ [name] = q at h1
      cases h1 with
      | file =>
        have : p = [] ∧ name = n := by cases p <;> simp_all
        obtain ⟨rfl, rfl⟩ := this
        left
        rw [if_pos h3]
        simpa [pathTo] using h2
      | afterFile h1 => subst hq; exact Or.inr ⟨p, name, h1, h2, h3, h4⟩
  | dir n es r ihe ihr =>
    intro lv d f
    simp only [findFiles, List.mem_append, ihr]
    constructor
    · rintro ((h | h) | ⟨p, name, h1, h2⟩)
      · split at h
        · next hc =>
          rw [ihe] at h
          obtain ⟨p, name, h1, h2, h3, h4⟩ := h
          simp only [Bool.and_eq_true, decide_eq_true_eq] at hc
          refine ⟨n :: p, name, .inside h1, h2, h3, Or.inr ⟨hc.1, ?_⟩⟩
          rcases h4 with h4 | ⟨-, h4⟩
          · simp only [List.cons_append, List.length_cons]; omega
          · simp only [List.cons_append, List.length_cons]
            omega
        · cases h
      · split at h
        · next hi =>
          rw [List.mem_singleton] at h
          exact ⟨[], n, .dir, h, hi, Or.inl rfl⟩
        · cases h
      · exact ⟨p, name, .afterDir h1, h2⟩
    · rintro ⟨p, name, h1, h2, h3, h4⟩
      generalize hq : p ++ [name] = q at h1
      cases h1 with
      | dir =>
        have : p = [] ∧ name = n := by cases p <;> simp_all
        obtain ⟨rfl, rfl⟩ := this
        left; right
        rw [if_pos h3]
        simpa [pathTo] using h2
      | @inside _ _ _ q h1 =>
        left; left
        cases p with
        | nil =>
          simp only [List.nil_append, List.cons.injEq] at hq
          exact absurd hq.2.symm (has_ne_nil h1)
        | cons m p =>
          simp only [List.cons_append, List.cons.injEq] at hq
          obtain ⟨rfl, rfl⟩ := hq
          have hlen : (m :: p ++ [name]).length = (p ++ [name]).length + 1 := rfl
          have hpos : 0 < (p ++ [name]).length := by simp
          rcases h4 with h4 | ⟨hr, h4⟩
          · omega
          · have hlv : lv ≠ 0 := by omega
            rw [if_pos (by simp [hr, hlv]), ihe]
            refine ⟨p, name, h1, h2, h3, ?_⟩
            by_cases hl1 : (p ++ [name]).length = 1
            · exact Or.inl hl1
            · exact Or.inr ⟨hr, by omega⟩
      | afterDir h1 => subst hq; exact Or.inr ⟨p, name, h1, h2, h3, h4⟩

theorem sublist_of_all (inc : Str → Bool) (recursive : Bool) (t : Listing) :
    ∀ (lv lv' : Int) (d : Path), lv' < 0 → List.Sublist (findFiles inc recursive lv d t) (findFiles (fun _ => true) true lv' d t) := by
  induction t with
  | nil => intro lv lv' d h; exact List.Sublist.refl _
  | file n r ih =>
    intro lv lv' d h
    simp only [findFiles]
    refine List.Sublist.append ?_ (ih lv lv' d h)
    split
    · exact List.Sublist.refl _
    · exact List.nil_sublist _
  | dir n es r ihe ihr =>
    intro lv lv' d h
    simp only [findFiles]
    refine List.Sublist.append (List.Sublist.append ?_ ?_) (ihr lv lv' d h)
    · have hl : (true && decide (lv' ≠ 0)) = true := by simp; omega
      rw [if_pos hl]
      split
      · exact ihe (lv - 1) (lv' - 1) _ (by omega)
      · exact List.nil_sublist _
    · split
      · exact List.Sublist.refl _
      · exact List.nil_sublist _

/-- **C105.** The result is in the order of all entries. -/
theorem C105_order (inc : Str → Bool) (recursive : Bool) (lv : Int) (d : Path) (t : Listing) :
    List.Sublist (findFiles inc recursive lv d t) (findFiles (fun _ => true) true (-1) d t) := sublist_of_all inc recursive t lv (-1) d (by omega)

/-- **C105, violated.** A directory whose name matches is in the result. -/
theorem C105_directory_violated (inc : Str → Bool) (recursive : Bool) (lv : Int) (d : Path) (n : Str) (es r : Listing) (h : inc n = true) :
    entryPath d n ∈ findFiles inc recursive lv d (.dir n es r) := by
  simp [findFiles, h]

/-! ### No entry twice -/

/-- What stands before the names in a directory. -/
def base (d : Path) : Path :=
  match d.getLast? with
  | none => []
  | some c => if c = '/' then d else d ++ ['/']

/-- The names behind the first one. -/
def tail (p : List Str) : Str := (p.map ('/' :: ·)).flatten

theorem entryPath_base (d : Path) (n : Str) : entryPath d n = base d ++ n := by
  unfold entryPath base
  cases d.getLast? with
  | none => rfl
  | some c =>
    simp only
    split <;> simp

theorem base_entry (d : Path) (n : Str) (hn : n ≠ []) (hs : '/' ∉ n) : base (entryPath d n) = base d ++ n ++ ['/'] := by
  rw [entryPath_base]
  obtain ⟨m, c, rfl⟩ : ∃ m c, n = m ++ [c] := by
    rcases List.eq_nil_or_concat n with h | ⟨m, c, h⟩
    · exact absurd h hn
    · exact ⟨m, c, by rw [h, List.concat_eq_append]⟩
  have hc : c ≠ '/' := by rintro rfl; simp at hs
  have hdef : ∀ q : Path, base (q ++ [c]) = q ++ [c] ++ ['/'] := by
    intro q
    unfold base
    rw [List.getLast?_append_of_ne_nil _ (by simp)]
    simp [hc]
  rw [← List.append_assoc, hdef]

theorem pathTo_eq (p : List Str) : ∀ (d : Path) (n : Str), n ≠ [] → '/' ∉ n → (∀ m ∈ p, m ≠ [] ∧ '/' ∉ m) → pathTo d (n :: p) = base d ++ n ++ tail p := by
  induction p with
  | nil => intro d n h1 h2 h3; simp [pathTo, entryPath_base, tail]
  | cons m p ih =>
    intro d n h1 h2 h3
    rw [pathTo_cons, ih _ _ (h3 m (by simp)).1 (h3 m (by simp)).2 fun x hx => h3 x (List.mem_cons_of_mem _ hx), base_entry d n h1 h2]
    simp [tail]

theorem name_take (n : Str) (hn : '/' ∉ n) (p : List Str) : (n ++ tail p).takeWhile (· ≠ '/') = n ∧ (n ++ tail p).dropWhile (· ≠ '/') = tail p := by
  induction n with
  | nil => cases p <;> simp [tail]
  | cons c n ih =>
    simp only [List.mem_cons, not_or] at hn
    have hc : c ≠ '/' := fun e => hn.1 e.symm
    have := ih hn.2
    simpa [hc] using this

theorem names_inj (p : List Str) : ∀ (n m : Str) (q : List Str), '/' ∉ n → '/' ∉ m → (∀ x ∈ p, '/' ∉ x) → (∀ x ∈ q, '/' ∉ x) →
    n ++ tail p = m ++ tail q → n = m ∧ p = q := by
  induction p with
  | nil =>
    intro n m q hn hm hp hq h
    have h1 := name_take n hn []
    have h2 := name_take m hm q
    rw [h] at h1
    refine ⟨h1.1.symm.trans h2.1, ?_⟩
    have : tail [] = tail q := h1.2.symm.trans h2.2
    cases q with
    | nil => rfl
    | cons x q => simp [tail] at this
  | cons y p ih =>
    intro n m q hn hm hp hq h
    have h1 := name_take n hn (y :: p)
    have h2 := name_take m hm q
    rw [h] at h1
    refine ⟨h1.1.symm.trans h2.1, ?_⟩
    have : tail (y :: p) = tail q := h1.2.symm.trans h2.2
    cases q with
    | nil => simp [tail] at this
    | cons x q =>
      simp only [tail, List.map_cons, List.flatten_cons, List.cons_append, List.cons.injEq, true_and] at this
      have := ih y x q (hp y (by simp)) (hq x (by simp)) (fun z hz => hp z (List.mem_cons_of_mem _ hz)) (fun z hz => hq z (List.mem_cons_of_mem _ hz)) this
      rw [this.1, this.2]

theorem pathTo_inj {d : Path} {p q : List Str} (hp : p ≠ []) (hq : q ≠ []) (h1 : ∀ m ∈ p, m ≠ [] ∧ '/' ∉ m) (h2 : ∀ m ∈ q, m ≠ [] ∧ '/' ∉ m)
    (h : pathTo d p = pathTo d q) : p = q := by
  cases p with
  | nil => exact absurd rfl hp
  | cons n p =>
    cases q with
    | nil => exact absurd rfl hq
    | cons m q =>
      simp only [List.forall_mem_cons] at h1 h2
      rw [pathTo_eq p d n h1.1.1 h1.1.2 h1.2, pathTo_eq q d m h2.1.1 h2.1.2 h2.2, List.append_assoc, List.append_assoc] at h
      have := names_inj p n m q h1.1.2 h2.1.2 (fun x hx => (h1.2 x hx).2) (fun x hx => (h2.2 x hx).2) (List.append_cancel_left h)
      rw [this.1, this.2]

theorem has_proper {t : Listing} {p : List Str} (h : Has t p) (ht : Proper t) : ∀ m ∈ p, m ≠ [] ∧ '/' ∉ m := by
  induction h with
  | file => simp only [Proper] at ht; simpa using ⟨ht.1, ht.2.1⟩
  | dir => simp only [Proper] at ht; simpa using ⟨ht.1, ht.2.1⟩
  | inside _ ih => simp only [Proper] at ht; exact List.forall_mem_cons.2 ⟨⟨ht.1, ht.2.1⟩, ih ht.2.2.2.1⟩
  | afterFile _ ih => simp only [Proper] at ht; exact ih ht.2.2.2
  | afterDir _ ih => simp only [Proper] at ht; exact ih ht.2.2.2.2

theorem found_has {inc : Str → Bool} {recursive : Bool} {t : Listing} {lv : Int} {d f : Path} (h : f ∈ findFiles inc recursive lv d t) :
    ∃ p, Has t p ∧ f = pathTo d p := by
  obtain ⟨p, name, h1, h2, -⟩ := (C105_find_files inc recursive t lv d f).1 h
  exact ⟨_, h1, h2⟩

theorem nodup_if (c : Prop) [Decidable c] (x : Path) : (if c then [x] else []).Nodup := by split <;> simp

theorem mem_if {c : Prop} [Decidable c] {x y : Path} (h : y ∈ if c then [x] else []) : y = x := by
  split at h
  · exact List.mem_singleton.1 h
  · cases h

/-- **C105.** No entry is found twice. -/
theorem C105_once (inc : Str → Bool) (recursive : Bool) (t : Listing) (h : Proper t) : ∀ lv d, (findFiles inc recursive lv d t).Nodup := by
  induction t with
  | nil => intro lv d; exact List.nodup_nil
  | file n r ih =>
    intro lv d
    have hp := h
    simp only [Proper] at h
    refine List.nodup_append.2 ⟨nodup_if _ _, ih h.2.2.2 lv d, ?_⟩
    intro x hx y hy e
    subst e
    have e1 := mem_if hx
    obtain ⟨q, hq, e2⟩ := found_has hy
    have := pathTo_inj (d := d) (p := [n]) (q := q) (by simp) (has_ne_nil hq) (by simpa using ⟨h.1, h.2.1⟩) (has_proper hq h.2.2.2) (by rw [← e2, e1]; rfl)
    obtain ⟨m, q', e3, hm⟩ := has_top hq
    rw [← this] at e3
    cases e3
    exact h.2.2.1 hm
  | dir n es r ihe ihr =>
    intro lv d
    simp only [Proper] at h
    obtain ⟨hn, hs, hh, hes, hr⟩ := h
    have in1 : ∀ x, x ∈ (if recursive && decide (lv ≠ 0) then findFiles inc recursive (lv - 1) (entryPath d n) es else []) →
        ∃ q, Has es q ∧ x = pathTo d (n :: q) := by
      intro x hx
      split at hx
      · exact found_has hx
      · cases hx
    have in3 : ∀ x, x ∈ findFiles inc recursive lv d r → ∃ q, Has r q ∧ x = pathTo d q := fun x hx => found_has hx
    have hnames : ∀ q, Has es q → ∀ m ∈ n :: q, m ≠ [] ∧ '/' ∉ m := fun q hq => List.forall_mem_cons.2 ⟨⟨hn, hs⟩, has_proper hq hes⟩
    refine List.nodup_append.2 ⟨List.nodup_append.2 ⟨?_, nodup_if _ _, ?_⟩, ihr hr lv d, ?_⟩
    · split
      · exact ihe hes _ _
      · exact List.nodup_nil
    · intro x hx y hy e
      subst e
      obtain ⟨q, hq, e1⟩ := in1 x hx
      have := pathTo_inj (d := d) (p := n :: q) (q := [n]) (by simp) (by simp) (hnames q hq) (by simpa using ⟨hn, hs⟩) (by rw [← e1, mem_if hy]; rfl)
      simp only [List.cons.injEq, true_and] at this
      exact has_ne_nil hq this
    · intro x hx y hy e
      subst e
      obtain ⟨q, hq, e2⟩ := in3 x hy
      rcases List.mem_append.1 hx with hx | hx
      · obtain ⟨q', hq', e1⟩ := in1 x hx
        have := pathTo_inj (d := d) (p := n :: q') (q := q) (by simp) (has_ne_nil hq) (hnames q' hq') (has_proper hq hr) (by rw [← e1, e2])
        obtain ⟨m, q'', e3, hm⟩ := has_top hq
        rw [← this] at e3
        cases e3
        exact hh hm
      · have := pathTo_inj (d := d) (p := [n]) (q := q) (by simp) (has_ne_nil hq) (by simpa using ⟨hn, hs⟩) (has_proper hq hr) (by rw [← e2, mem_if hx]; rfl)
        obtain ⟨m, q'', e3, hm⟩ := has_top hq
        rw [← this] at e3
        cases e3
        exact hh hm

/-! ### Examples -/

private def home : Listing := .dir "src".toList (.file "a.cpp".toList (.dir "sub".toList (.file "b.cpp".toList .nil) (.file "a.h".toList .nil))) (.file "c.cpp".toList .nil)

example : findFiles (Xo.Glob.matcher "*.cpp".toList ";".toList) true (-1) "/p".toList home =
    ["/p/src/a.cpp".toList, "/p/src/sub/b.cpp".toList, "/p/c.cpp".toList] := by decide +kernel
example : findFiles (Xo.Glob.matcher "*.cpp".toList ";".toList) true 1 "/p".toList home = ["/p/src/a.cpp".toList, "/p/c.cpp".toList] := by decide +kernel
example : findFiles (Xo.Glob.matcher "s*".toList ";".toList) true (-1) "/p/".toList home = ["/p/src/sub".toList, "/p/src".toList] := by decide +kernel
example : Proper home := by
  simp only [home, Proper, top]
  decide

example : tryFindIn (fun p => p = "/lib/x.h".toList) ["/usr".toList, "/lib".toList] 2 "/src/x.h".toList = some (.ok (some "/lib/x.h".toList)) := by decide +kernel
/-- The name of a backup file. -/
example (fuel : Nat) : tryFindIn (fun _ => false) ["/lib".toList] fuel "/src/~x.h".toList = none :=
  C105_search_violated _ _ _ (by decide) rfl (by decide) rfl fuel
example : findFile (fun p => p = "/base/a".toList) "/base".toList ["/a".toList] = .ok "/base/a".toList ∧
    tryFindFile (fun p => p = "/base/a".toList) "/base".toList ["/a".toList] = .ok none :=
  C105_absolute_violated _ _ _ (by decide) (by decide) (by decide)
example : findFile (fun p => p = "/base/b".toList) "/base".toList ["a".toList, "b".toList] = .ok "/base/b".toList := by decide

end Xo.Search
