import Verif.Model.UniqueDir
import Verif.Lemmas.Num
import Verif.Props.C32_Path
import Mathlib.Data.List.Basic
import Mathlib.Data.List.Induction

/-!
C67: unique directories. First any number of processes that use the file system at the same time, then one call
alone.
-/
namespace Xo
namespace Dir
open Xo.Spec

/-! ## The names that are tried -/

theorem natToStr_inj {i j : Nat} (h : natToStr i = natToStr j) : i = j := by
  have h1 := (natToStr_spec i).2.2
  have h2 := (natToStr_spec j).2.2
  rw [← h1, ← h2, h]

/-- Different attempts try different names. -/
theorem C67_candidates_differ (folder : Path) (i j : Nat) (h : candidate folder i = candidate folder j) : i = j := by
  unfold candidate at h
  split at h <;> split at h
  · exact natToStr_inj (by simpa using h)
  · simp at h
  · simp at h
  · omega

/-! ## The file system -/

namespace Fs

theorem stat_none_of_can {fs : Fs} {p : Path} (h : fs.canMkdir p = true) : fs.stat p = none ∧ p ≠ [] := by
  simp only [canMkdir, decide_eq_true_eq] at h
  refine ⟨?_, h.1⟩
  rw [stat, if_neg h.1]; exact h.2.2.1

theorem add_at (fs : Fs) (p : Path) (q : Place) (hp : (place p).names ≠ []) :
    (fs.add p).at? q = if q = place p then some .dir else fs.at? q := by
  unfold at? add
  by_cases h : q = place p
  · subst h; simp [hp]
  · simp [h]

theorem mkdir_true {fs : Fs} {d : Bool} {p : Path} (h : (fs.mkdir d p).2 = true) :
    fs.canMkdir p = true ∧ (fs.mkdir d p).1 = fs.add p := by
  unfold mkdir at h ⊢
  split at h
  · rename_i hc; rw [if_pos hc]; exact ⟨hc.1, rfl⟩
  · cases h

/-- What was there is still there. -/
def Le (a b : Fs) : Prop := ∀ q k, a.at? q = some k → b.at? q = some k

theorem Le.refl (a : Fs) : Le a a := fun _ _ h => h

theorem Le.trans {a b c : Fs} (h1 : Le a b) (h2 : Le b c) : Le a c := fun q k h => h2 q k (h1 q k h)

theorem mkdir_le (fs : Fs) (d : Bool) (p : Path) : Le fs (fs.mkdir d p).1 := by
  intro q k h
  unfold mkdir
  split
  · rename_i hc
    have hc := hc.1
    simp only [canMkdir, decide_eq_true_eq] at hc
    rw [add_at _ _ _ hc.2.1]
    split
    · rename_i e; subst e; rw [hc.2.2.1] at h; cases h
    · exact h
  · exact h

theorem mkdir_true_at {fs : Fs} {d : Bool} {p : Path} (h : (fs.mkdir d p).2 = true) :
    (fs.mkdir d p).1.at? (place p) = some .dir := by
  obtain ⟨h1, h2⟩ := mkdir_true h
  simp only [canMkdir, decide_eq_true_eq] at h1
  rw [h2, add_at _ _ _ h1.2.1, if_pos rfl]

end Fs

open Fs

/-! ## Any number of processes -/

/-- What holds after any events: the path of the last return was not there before the `mkdir` that made it, and it
is one of the first `max` candidates of a call made by that process. -/
structure Fresh (evs : List Ev) (s : Sys) : Prop where
  made : List.Forall₂ (fun (r : Nat × Path) fs => fs.exists r.2 = false) s.returned s.made
  called : ∀ k q, (k, q) ∈ s.returned → ∃ folder max i, Ev.call k folder max ∈ evs ∧ i < max ∧ q = candidate folder i
  inCheck : ∀ k folder max i, s.pc k = .check folder max i → Ev.call k folder max ∈ evs
  inDown : ∀ k folder max i st, s.pc k = .down folder max i st →
    Ev.call k folder max ∈ evs ∧ i < max ∧ st.getLast? = some (candidate folder i)
  inUp : ∀ k folder max i st, s.pc k = .up folder max i st →
    Ev.call k folder max ∈ evs ∧ i < max ∧ st.getLast? = some (candidate folder i)

theorem Fresh.mono {evs : List Ev} {s : Sys} (h : Fresh evs s) (e : Ev) : Fresh (evs ++ [e]) s where
  made := h.made
  called k q hk := by
    obtain ⟨f, m, i, h1, h2⟩ := h.called k q hk
    exact ⟨f, m, i, List.mem_append_left _ h1, h2⟩
  inCheck k f m i hk := List.mem_append_left _ (h.inCheck k f m i hk)
  inDown k f m i st hk := ⟨List.mem_append_left _ (h.inDown k f m i st hk).1, (h.inDown k f m i st hk).2⟩
  inUp k f m i st hk := ⟨List.mem_append_left _ (h.inUp k f m i st hk).1, (h.inUp k f m i st hk).2⟩

/-- The claims about places, for a change of the place of one process. -/
theorem Fresh.set {evs : List Ev} {s : Sys} (h : Fresh evs s) (k : Nat) (v : Pc) (fs : Fs)
    (h1 : ∀ folder max i, v = .check folder max i → Ev.call k folder max ∈ evs)
    (h2 : ∀ folder max i st, v = .down folder max i st →
      Ev.call k folder max ∈ evs ∧ i < max ∧ st.getLast? = some (candidate folder i))
    (h3 : ∀ folder max i st, v = .up folder max i st →
      Ev.call k folder max ∈ evs ∧ i < max ∧ st.getLast? = some (candidate folder i)) :
    Fresh evs { s with fs := fs, pc := setPc s.pc k v } where
  made := h.made
  called := h.called
  inCheck j f m i hj := by
    simp only [setPc] at hj
    split at hj
    · rename_i e; subst e; exact h1 f m i hj
    · exact h.inCheck j f m i hj
  inDown j f m i st hj := by
    simp only [setPc] at hj
    split at hj
    · rename_i e; subst e; exact h2 f m i st hj
    · exact h.inDown j f m i st hj
  inUp j f m i st hj := by
    simp only [setPc] at hj
    split at hj
    · rename_i e; subst e; exact h3 f m i st hj
    · exact h.inUp j f m i st hj

theorem Fresh.step {evs : List Ev} {s : Sys} (h : Fresh evs s) (k : Nat) (d : Bool) : Fresh evs (procStep s k d) := by
  unfold procStep
  split
  · exact h
  · rename_i folder max i hpc
    have hc := h.inCheck k folder max i hpc
    split
    · rename_i hlt
      split
      · exact h.set k _ s.fs (by rintro _ _ _ ⟨⟩; exact hc) (by rintro _ _ _ _ ⟨⟩) (by rintro _ _ _ _ ⟨⟩)
      · exact h.set k _ s.fs (by rintro _ _ _ ⟨⟩) (by rintro _ _ _ _ ⟨⟩; exact ⟨hc, hlt, rfl⟩) (by rintro _ _ _ _ ⟨⟩)
    · exact h.set k _ s.fs (by rintro _ _ _ ⟨⟩) (by rintro _ _ _ _ ⟨⟩) (by rintro _ _ _ _ ⟨⟩)
  · rename_i folder max i stack hpc
    have hc := h.inDown k folder max i stack hpc
    split
    · exact h
    · rename_i q rest
      split
      · exact h.set k _ s.fs (by rintro _ _ _ ⟨⟩)
          (by rintro _ _ _ _ ⟨⟩; exact ⟨hc.1, hc.2.1, by rw [List.getLast?_cons_cons]; exact hc.2.2⟩)
          (by rintro _ _ _ _ ⟨⟩)
      · exact h.set k _ s.fs (by rintro _ _ _ ⟨⟩) (by rintro _ _ _ _ ⟨⟩) (by rintro _ _ _ _ ⟨⟩; exact hc)
  · rename_i folder max i stack hpc
    have hc := h.inUp k folder max i stack hpc
    split
    · exact h
    · rename_i q
      split
      · rename_i hm
        obtain ⟨h1, h2⟩ := mkdir_true hm
        have h' := h.set k .idle (s.fs.mkdir d q).1 (by rintro _ _ _ ⟨⟩) (by rintro _ _ _ _ ⟨⟩) (by rintro _ _ _ _ ⟨⟩)
        refine ⟨.cons ?_ h.made, ?_, h'.inCheck, h'.inDown, h'.inUp⟩
        · simp [Fs.exists, (stat_none_of_can h1).1]
        · intro j p hj
          rcases List.mem_cons.1 hj with e | e
          · cases e
            have := hc.2.2
            simp only [List.getLast?_singleton, Option.some.injEq] at this
            exact ⟨folder, max, i, hc.1, hc.2.1, this⟩
          · exact h.called j p e
      · exact h.set k _ s.fs (by rintro _ _ _ ⟨⟩; exact hc.1) (by rintro _ _ _ _ ⟨⟩) (by rintro _ _ _ _ ⟨⟩)
    · rename_i q r rest
      exact h.set k _ _ (by rintro _ _ _ ⟨⟩) (by rintro _ _ _ _ ⟨⟩)
        (by rintro _ _ _ _ ⟨⟩; exact ⟨hc.1, hc.2.1, by rw [List.getLast?_cons_cons] at hc; exact hc.2.2⟩)
  · exact h.set k _ s.fs (by rintro _ _ _ ⟨⟩) (by rintro _ _ _ _ ⟨⟩) (by rintro _ _ _ _ ⟨⟩)

theorem fresh_run (fs : Fs) (evs : List Ev) : Fresh evs (run (start fs) evs) := by
  induction evs using List.reverseRecOn with
  | nil => exact ⟨.nil, by simp [run, start], by simp [run, start], by simp [run, start], by simp [run, start]⟩
  | append_singleton evs e ih =>
    have h := ih.mono e
    rw [run, List.foldl_append]
    change Fresh _ (exec (run (start fs) evs) e)
    cases e with
    | call k folder max =>
      simp only [exec]
      split
      · exact h.set k _ _ (by rintro _ _ _ ⟨⟩; simp) (by rintro _ _ _ _ ⟨⟩) (by rintro _ _ _ _ ⟨⟩)
      · exact h
    | step k d => exact h.step k d
    | env fs' => exact ⟨h.made, h.called, h.inCheck, h.inDown, h.inUp⟩

/-- **C67.** Whatever other processes and the rest of the system do meanwhile — create, replace or delete anything,
refuse any `mkdir` — every path that a call of `create_unique_directory` returned did not exist at the moment just
before this call made it, and it is the given name or the name with a number in parentheses, below the number of
attempts. -/
theorem C67_created_is_new (fs : Fs) (evs : List Ev) :
    List.Forall₂ (fun (r : Nat × Path) before => before.exists r.2 = false)
        (run (start fs) evs).returned (run (start fs) evs).made ∧
      ∀ k q, (k, q) ∈ (run (start fs) evs).returned →
        ∃ folder max i, Ev.call k folder max ∈ evs ∧ i < max ∧ q = candidate folder i :=
  ⟨(fresh_run fs evs).made, (fresh_run fs evs).called⟩

/-- The rest of the system deletes and replaces nothing during these events. -/
def Keeps (s : Sys) : List Ev → Prop
  | [] => True
  | .env fs :: evs => Le s.fs fs ∧ Keeps (exec s (.env fs)) evs
  | e :: evs => Keeps (exec s e) evs

/-- What holds when nothing is deleted. -/
structure Distinct (fs0 : Fs) (s : Sys) : Prop where
  grows : Le fs0 s.fs
  there : ∀ r ∈ s.returned, s.fs.at? (place r.2) = some .dir
  nodup : (s.returned.map fun r => place r.2).Nodup
  new : ∀ r ∈ s.returned, fs0.exists r.2 = false

theorem Distinct.exec {fs0 : Fs} {s : Sys} (h : Distinct fs0 s) (e : Ev) (he : Keeps s [e]) :
    Distinct fs0 (exec s e) := by
  cases e with
  | call k folder max =>
    simp only [Dir.exec]
    split
    · exact ⟨h.grows, h.there, h.nodup, h.new⟩
    · exact h
  | env fs => exact ⟨h.grows.trans he.1, fun r hr => he.1 _ _ (h.there r hr), h.nodup, h.new⟩
  | step k d =>
    simp only [Dir.exec]
    unfold procStep
    split
    · exact h
    · split
      · split <;> exact ⟨h.grows, h.there, h.nodup, h.new⟩
      · exact ⟨h.grows, h.there, h.nodup, h.new⟩
    · split
      · exact h
      · split <;> exact ⟨h.grows, h.there, h.nodup, h.new⟩
    · split
      · exact h
      · rename_i q _
        split
        · rename_i hm
          obtain ⟨h1, h2⟩ := mkdir_true hm
          obtain ⟨h3, h4⟩ := stat_none_of_can h1
          rw [stat, if_neg h4] at h3
          refine ⟨h.grows.trans (mkdir_le _ _ _), ?_, ?_, ?_⟩
          · intro r hr
            rcases List.mem_cons.1 hr with rfl | hr
            · exact mkdir_true_at hm
            · exact mkdir_le _ _ _ _ _ (h.there r hr)
          · rw [List.map_cons, List.nodup_cons]
            refine ⟨fun hmem => ?_, h.nodup⟩
            obtain ⟨r, hr, e⟩ := List.mem_map.1 hmem
            have := h.there r hr
            rw [e, h3] at this; cases this
          · intro r hr
            rcases List.mem_cons.1 hr with rfl | hr
            · cases ha : fs0.at? (place q) with
              | none => simp [Fs.exists, stat, h4, ha]
              | some x => rw [h.grows _ _ ha] at h3; cases h3
            · exact h.new r hr
        · exact ⟨h.grows, h.there, h.nodup, h.new⟩
      · exact ⟨h.grows.trans (mkdir_le _ _ _), fun r hr => mkdir_le _ _ _ _ _ (h.there r hr), h.nodup, h.new⟩
    · exact ⟨h.grows, h.there, h.nodup, h.new⟩

theorem distinct_run (fs0 : Fs) (evs : List Ev) : ∀ s, Distinct fs0 s → Keeps s evs → Distinct fs0 (run s evs) := by
  induction evs with
  | nil => intro s h _; exact h
  | cons e evs ih =>
    intro s h hk
    have hk' : Keeps s [e] ∧ Keeps (exec s e) evs := by
      cases e with
      | env fs => exact ⟨⟨hk.1, trivial⟩, hk.2⟩
      | call => exact ⟨trivial, hk⟩
      | step => exact ⟨trivial, hk⟩
    exact ih _ (h.exec e hk'.1) hk'.2

/-- **C67.** As long as nothing is deleted, no two calls of `create_unique_directory`, by the same or by different
processes running at the same time, return paths to the same place; each returned place is a directory and did not
exist at the start. -/
theorem C67_never_collide (fs : Fs) (evs : List Ev) (h : Keeps (start fs) evs) :
    ((run (start fs) evs).returned.map fun r => place r.2).Nodup ∧
    (∀ r ∈ (run (start fs) evs).returned, fs.exists r.2 = false ∧
      (run (start fs) evs).fs.at? (place r.2) = some .dir) := by
  have := distinct_run fs evs (start fs) ⟨Le.refl _, by simp [start], by simp [start], by simp [start]⟩ h
  exact ⟨this.nodup, fun r hr => ⟨this.new r hr, this.there r hr⟩⟩

/-- The premise is met, with both processes past `directory_exists` before either calls `mkdir`: the first makes
`d`, the second gets `d (1)`. -/
example : Keeps (start ⟨fun _ => none⟩) [.call 0 "d".toList 9, .call 1 "d".toList 9, .step 0 false, .step 1 false,
      .step 0 false, .step 1 false, .step 0 false, .step 1 false, .step 1 false, .step 1 false, .step 1 false] ∧
    (run (start ⟨fun _ => none⟩) [.call 0 "d".toList 9, .call 1 "d".toList 9, .step 0 false, .step 1 false,
      .step 0 false, .step 1 false, .step 0 false, .step 1 false, .step 1 false, .step 1 false,
      .step 1 false]).returned = [(1, "d (1)".toList), (0, "d".toList)] := by
  refine ⟨trivial, by decide +kernel⟩

/-! ## One call alone -/

/-- The loop of `create_unique_directory` (filesystem.cpp:252-260) when no one else uses the file system. -/
def createLoop (fs : Fs) (folder : Path) (max i : Nat) : Fs × Res Path :=
  if i < max then
    if fs.directoryExists (candidate folder i) then createLoop fs folder max (i + 1)
    else if (createDirectories fs (candidate folder i)).2 then
      ((createDirectories fs (candidate folder i)).1, .ok (candidate folder i))
    else createLoop (createDirectories fs (candidate folder i)).1 folder max (i + 1)
  else (fs, .err)
termination_by max - i

/-- `n` steps of process 0. -/
def solo (n : Nat) (s : Sys) : Sys := run s (List.replicate n (.step 0 false))

theorem solo_add (m n : Nat) (s : Sys) : solo (m + n) s = solo n (solo m s) := by
  unfold solo run; rw [List.replicate_add, List.foldl_append]

theorem solo_one (s : Sys) : solo 1 s = procStep s 0 false := rfl

theorem setPc_setPc (pc : Nat → Pc) (k : Nat) (v w : Pc) : setPc (setPc pc k v) k w = setPc pc k w := by
  funext j; simp only [setPc]; split <;> rfl

theorem setPc_self (pc : Nat → Pc) (k : Nat) (v : Pc) : setPc pc k v k = v := by simp [setPc]

theorem down_solo (folder : Path) (max i : Nat) (pc : Nat → Pc) (ret : List (Nat × Path)) (made : List Fs) (n : Nat) :
    ∀ (q : Path) (rest : List Path) (fs : Fs), q.length ≤ n →
      ∃ m fs', solo m ⟨fs, setPc pc 0 (.down folder max i (q :: rest)), ret, made⟩ =
        ⟨fs', setPc pc 0 (.up folder max i (q :: rest)), ret, made⟩ ∧
        createDirectories fs q = fs'.mkdir false q := by
  induction n with
  | zero =>
    intro q rest fs hq
    obtain rfl : q = [] := List.eq_nil_of_length_eq_zero (by omega)
    refine ⟨1, fs, ?_, ?_⟩
    · rw [solo_one]; simp [procStep, setPc_self, setPc_setPc, show Path.hasParentPath [] = false by decide]
    · rw [createDirectories]; simp [show Path.hasParentPath [] = false by decide]
  | succ n ih =>
    intro q rest fs hq
    by_cases hp : q.hasParentPath = true
    · by_cases hd : fs.directoryExists q.parentPath = true
      · refine ⟨1, fs, ?_, ?_⟩
        · rw [solo_one]; simp [procStep, setPc_self, setPc_setPc, hd]
        · rw [createDirectories]; simp [hp, hd]
      · have hl := parentPath_length q hp
        have hd' : fs.directoryExists q.parentPath = false := by simpa using hd
        obtain ⟨m, fs', h1, h2⟩ := ih q.parentPath (q :: rest) fs (by omega)
        refine ⟨1 + m + 1, (fs'.mkdir false q.parentPath).1, ?_, ?_⟩
        · rw [solo_add, solo_add, solo_one, solo_one]
          have e : procStep ⟨fs, setPc pc 0 (.down folder max i (q :: rest)), ret, made⟩ 0 false =
              ⟨fs, setPc pc 0 (.down folder max i (q.parentPath :: q :: rest)), ret, made⟩ := by
            simp [procStep, setPc_self, setPc_setPc, hp, hd']
          rw [e, h1]
          simp [procStep, setPc_self, setPc_setPc]
        · rw [createDirectories]; simp only [hp, hd', h2]; simp
    · refine ⟨1, fs, ?_, ?_⟩
      · rw [solo_one]; simp [procStep, setPc_self, setPc_setPc, hp]
      · rw [createDirectories]; simp [hp]

theorem loop_solo (folder : Path) (max : Nat) (pc : Nat → Pc) (ret : List (Nat × Path)) (made : List Fs)
    (fs : Fs) (i : Nat) :
    ∃ m s, solo m ⟨fs, setPc pc 0 (.check folder max i), ret, made⟩ = s ∧ s.pc = setPc pc 0 .idle ∧
      s.fs = (createLoop fs folder max i).1 ∧
      s.returned = (match (createLoop fs folder max i).2 with | .ok p => (0, p) :: ret | _ => ret) := by
  fun_induction createLoop fs folder max i with
  | case1 fs i hlt hd ih =>
    obtain ⟨m, s, h1, h2⟩ := ih
    refine ⟨1 + m, s, ?_, h2⟩
    rw [solo_add, solo_one, ← h1]
    simp [procStep, setPc_self, setPc_setPc, hlt, hd]
  | case2 fs i hlt hd hc =>
    obtain ⟨m, fs', h1, h2⟩ := down_solo folder max i pc ret made _ (candidate folder i) [] fs (Nat.le_refl _)
    refine ⟨1 + m + 1, _, rfl, ?_⟩
    rw [solo_add, solo_add, solo_one, solo_one]
    have e : procStep ⟨fs, setPc pc 0 (.check folder max i), ret, made⟩ 0 false =
        ⟨fs, setPc pc 0 (.down folder max i [candidate folder i]), ret, made⟩ := by
      simp [procStep, setPc_self, setPc_setPc, hlt, hd]
    rw [e, h1]
    rw [h2] at hc
    simp [procStep, setPc_self, setPc_setPc, hc, h2]
  | case3 fs i hlt hd hc ih =>
    obtain ⟨m, fs', h1, h2⟩ := down_solo folder max i pc ret made _ (candidate folder i) [] fs (Nat.le_refl _)
    obtain ⟨m2, s, h3, h4⟩ := ih
    refine ⟨1 + m + 1 + m2, s, ?_, h4⟩
    rw [solo_add, solo_add, solo_add, solo_one, solo_one]
    have e : procStep ⟨fs, setPc pc 0 (.check folder max i), ret, made⟩ 0 false =
        ⟨fs, setPc pc 0 (.down folder max i [candidate folder i]), ret, made⟩ := by
      simp [procStep, setPc_self, setPc_setPc, hlt, hd]
    rw [e, h1, ← h3]
    rw [h2] at hc
    have hf : (fs'.mkdir false (candidate folder i)).1 = fs' := by
      unfold mkdir at hc ⊢
      split
      · rename_i hh; rw [if_pos hh] at hc; exact absurd rfl hc
      · rfl
    simp [procStep, setPc_self, setPc_setPc, hc, h2, hf]
  | case4 fs i hlt =>
    refine ⟨2, _, rfl, ?_⟩
    rw [show 2 = 1 + 1 from rfl, solo_add, solo_one, solo_one]
    simp [procStep, setPc_self, setPc_setPc, hlt]

/-- **C67.** A process that calls `create_unique_directory` and then runs alone returns after finitely many steps, and
result and file system are those of the sequential loop. -/
theorem C67_alone (fs : Fs) (folder : Path) (max : Nat) :
    ∃ m, let s := solo m (exec (start fs) (.call 0 folder max))
      s.pc 0 = .idle ∧ s.fs = (createLoop fs folder max 0).1 ∧
      s.returned = (match (createLoop fs folder max 0).2 with | .ok p => [(0, p)] | _ => []) := by
  obtain ⟨m, s, h1, h2, h3, h4⟩ := loop_solo folder max (fun _ => .idle) [] [] fs 0
  refine ⟨m, ?_⟩
  have e : exec (start fs) (.call 0 folder max) = ⟨fs, setPc (fun _ => .idle) 0 (.check folder max 0), [], []⟩ := by
    simp [exec, start]
  simp only [e, h1]
  exact ⟨by rw [h2]; simp [setPc], h3, h4⟩

theorem createDirectories_le (fs : Fs) (p : Path) : Le fs (createDirectories fs p).1 := by
  fun_induction createDirectories fs p with
  | case1 => exact mkdir_le _ _ _
  | case2 p h hd _ ih => exact ih.trans (mkdir_le _ _ _)
  | case3 => exact mkdir_le _ _ _

theorem createDirectories_true (fs : Fs) (p : Path) (h : (createDirectories fs p).2 = true) :
    fs.exists p = false ∧ (createDirectories fs p).1.at? (place p) = some .dir := by
  have key : ∃ fs', Le fs fs' ∧ createDirectories fs p = fs'.mkdir false p := by
    rw [createDirectories]
    split
    · split
      · exact ⟨fs, Le.refl _, rfl⟩
      · exact ⟨_, createDirectories_le _ _, rfl⟩
    · exact ⟨fs, Le.refl _, rfl⟩
  obtain ⟨fs', hle, e⟩ := key
  rw [e] at h ⊢
  refine ⟨?_, mkdir_true_at h⟩
  obtain ⟨h1, h2⟩ := stat_none_of_can (mkdir_true h).1
  rw [stat, if_neg h2] at h1
  cases ha : fs.at? (place p) with
  | none => simp [Fs.exists, stat, h2, ha]
  | some x => rw [hle _ _ ha] at h1; cases h1

/-- **C67.** `create_unique_directory` alone: if it returns a path, nothing existed there before the call, a directory
is there after it, the path is a candidate, and everything that existed before still exists unchanged. If it throws,
everything that existed still exists, too. -/
theorem C67_create (fs : Fs) (folder : Path) (max : Nat) :
    Le fs (createLoop fs folder max 0).1 ∧
    ∀ p, (createLoop fs folder max 0).2 = .ok p →
      fs.exists p = false ∧ (createLoop fs folder max 0).1.at? (place p) = some .dir ∧
      ∃ i, i < max ∧ p = candidate folder i := by
  generalize hz : 0 = z
  clear hz
  fun_induction createLoop fs folder max z with
  | case1 fs i hlt hd ih => exact ih
  | case2 fs i hlt hd hc =>
    refine ⟨createDirectories_le _ _, ?_⟩
    rintro p ⟨⟩
    obtain ⟨h1, h2⟩ := createDirectories_true fs _ hc
    exact ⟨h1, h2, i, hlt, rfl⟩
  | case3 fs i hlt hd hc ih =>
    refine ⟨(createDirectories_le _ _).trans ih.1, fun p hp => ?_⟩
    obtain ⟨h1, h2, h3⟩ := ih.2 p hp
    refine ⟨?_, h2, h3⟩
    by_cases hn : p = []
    · simp [Fs.exists, stat, hn]
    cases ha : fs.at? (place p) with
    | none => simp [Fs.exists, stat, hn, ha]
    | some x =>
      have := createDirectories_le fs (candidate folder i) _ _ ha
      simp [Fs.exists, stat, hn, this] at h1
  | case4 fs i hlt => exact ⟨Le.refl _, by rintro p ⟨⟩⟩

/-! ## Which name is taken -/

/-- A file name: not empty, not the dot, without separators. -/
structure Name (b : Str) : Prop where
  ne : b ≠ []
  dot : b ≠ ['.']
  free : ∀ c ∈ b, c ≠ '/' ∧ c ≠ '\\'

theorem cut_free {b : Str} (h : ∀ c ∈ b, c ≠ '/') : cut b = [b] := by
  induction b with
  | nil => rfl
  | cons c b ih =>
    rw [cut, if_neg (h c (by simp)), ih (fun x hx => h x (by simp [hx]))]

theorem cut_append (a b : Str) (h : ∀ c ∈ b, c ≠ '/') : cut (a ++ '/' :: b) = cut a ++ [b] := by
  induction a with
  | nil => simp [cut, cut_free h]
  | cons c a ih =>
    simp only [List.cons_append, cut]
    split
    · rw [ih]; rfl
    · rw [ih]
      cases hc : cut a with
      | nil =>
        exfalso
        cases a with
        | nil => simp [cut] at hc
        | cons d a => simp only [cut] at hc; split at hc <;> [cases hc; (split at hc <;> cases hc)]
      | cons x y => rfl

theorem place_name {b : Str} (h : Name b) : place b = ⟨false, [b]⟩ := by
  have hc := cut_free (b := b) (fun c hc => (h.free c hc).1)
  have hh : b.head? ≠ some '/' := by
    intro e
    exact (h.free '/' (List.mem_of_mem_head? e)).1 rfl
  unfold place
  rw [hc]
  simp [hh, h.ne, h.dot]

theorem place_abs {b : Str} (h : Name b) : place ('/' :: b) = ⟨true, [b]⟩ := by
  have hc := cut_free (b := b) (fun c hc => (h.free c hc).1)
  unfold place
  simp [cut, hc, h.ne, h.dot]

theorem place_snoc {a b : Str} (ha : a ≠ []) (h : Name b) :
    place (a ++ '/' :: b) = ⟨(place a).abs, (place a).names ++ [b]⟩ := by
  have hc := cut_append a b (fun c hc => (h.free c hc).1)
  unfold place
  rw [hc, List.filter_append]
  cases a with
  | nil => exact absurd rfl ha
  | cons c a => simp [h.ne, h.dot]

theorem name_suffix {b s : Str} (h : Name b) (hs : ∀ c ∈ s, c ≠ '/' ∧ c ≠ '\\') (h2 : s ≠ ['.']) (h3 : s.length ≠ 1) :
    Name (b ++ s) where
  ne := by simp [h.ne]
  dot := by
    intro e
    have hl : (b ++ s).length = 1 := by rw [e]; rfl
    have hb : 0 < b.length := List.length_pos_iff.2 h.ne
    rw [List.length_append] at hl
    have : s = [] := List.eq_nil_of_length_eq_zero (by omega)
    rw [this, List.append_nil] at e
    exact h.dot e
  free c hc := by
    rcases List.mem_append.1 hc with hc | hc
    · exact h.free c hc
    · exact hs c hc

theorem digit_not_sep {c : Char} (h : isDigitC c = true) : c ≠ '/' ∧ c ≠ '\\' := by
  rw [isDigitC_iff] at h
  constructor <;> (rintro rfl; revert h; decide)

theorem name_candidate {b : Str} (h : Name b) (i : Nat) : Name (candidate b i) := by
  unfold candidate
  split
  · refine name_suffix h ?_ (by simp) (by simp)
    intro c hc
    simp only [List.mem_append] at hc
    rcases hc with (hc | hc) | hc
    · revert c; decide
    · exact digit_not_sep ((natToStr_spec i).1 c hc)
    · revert c; decide
  · exact h

theorem candidate_snoc (a b : Str) (i : Nat) : candidate (a ++ '/' :: b) i = a ++ '/' :: candidate b i := by
  unfold candidate; split <;> simp

theorem parent_snoc (a b : Str) (h : ∀ c ∈ b, c ≠ '/' ∧ c ≠ '\\') :
    Path.hasParentPath (a ++ '/' :: b) = true ∧ Path.parentPath (a ++ '/' :: b) = a := by
  have hc : Component (a ++ '/' :: b) (a ++ ['/']) b := ⟨by simp, h, Or.inr ⟨a, Or.inl rfl⟩⟩
  constructor
  · unfold Path.hasParentPath; rw [lastSep_eq hc]; simp
  · rw [C32_parent _ _ _ hc]; simp

theorem parent_name (b : Str) (h : ∀ c ∈ b, c ≠ '/' ∧ c ≠ '\\') : Path.hasParentPath b = false := by
  have hc : Component b [] b := ⟨by simp, h, Or.inl rfl⟩
  unfold Path.hasParentPath; rw [lastSep_eq hc]; simp

/-- In an existing directory `a`, `create_directories( a / b )` is `mkdir`: it succeeds exactly if nothing is there. -/
theorem createDirectories_in (fs : Fs) (a b : Str) (hb : Name b) (ha : fs.stat a = some .dir) :
    createDirectories fs (a ++ '/' :: b) =
      if fs.exists (a ++ '/' :: b) then (fs, false) else (fs.add (a ++ '/' :: b), true) := by
  have hane : a ≠ [] := by rintro rfl; simp [stat] at ha
  have hd : fs.directoryExists a = true := by simp [directoryExists, ha]
  obtain ⟨h1, h2⟩ := parent_snoc a b hb.free
  rw [createDirectories]
  simp only [h1, h2, hd, if_true]
  rw [stat, if_neg hane] at ha
  have hp := place_snoc hane hb
  have hl : (⟨(place (a ++ '/' :: b)).abs, (place (a ++ '/' :: b)).names.dropLast⟩ : Place) = place a := by
    rw [hp]; simp
  unfold mkdir Fs.exists stat canMkdir
  rw [hl, ha]
  cases hx : fs.at? (place (a ++ '/' :: b)) with
  | none => simp [hp]
  | some x => simp

/-- In the working directory, the same. -/
theorem createDirectories_here (fs : Fs) (b : Str) (hb : Name b) :
    createDirectories fs b = if fs.exists b then (fs, false) else (fs.add b, true) := by
  rw [createDirectories]
  simp only [parent_name b hb.free]
  have hp := place_name hb
  have hl : (⟨(place b).abs, (place b).names.dropLast⟩ : Place) = ⟨false, []⟩ := by rw [hp]; rfl
  unfold mkdir Fs.exists stat canMkdir
  rw [hl]
  cases hx : fs.at? (place b) with
  | none => simp [hp, hb.ne, Fs.at?]
  | some x => simp [hb.ne]

theorem createLoop_first (fs : Fs) (folder : Path) (max : Nat)
    (hc : ∀ i, createDirectories fs (candidate folder i) =
      if fs.exists (candidate folder i) then (fs, false) else (fs.add (candidate folder i), true)) (i : Nat) :
    createLoop fs folder max i = if i < max then
      (if fs.exists (candidate folder i) then createLoop fs folder max (i + 1)
        else (fs.add (candidate folder i), .ok (candidate folder i))) else (fs, .err) := by
  rw [createLoop]
  split
  · rw [hc i]
    by_cases he : fs.exists (candidate folder i) = true
    · simp [he]
    · have hd : fs.directoryExists (candidate folder i) = false := by
        have : fs.stat (candidate folder i) = none := by simpa [Fs.exists] using he
        simp [directoryExists, this]
      simp [he, hd]
  · rfl

/-- The name is in the working directory or in an existing directory. -/
def Ready (fs : Fs) (folder : Path) : Prop :=
  Name folder ∨ ∃ a b, folder = a ++ '/' :: b ∧ Name b ∧ fs.stat a = some .dir

theorem ready_create {fs : Fs} {folder : Path} (h : Ready fs folder) (i : Nat) :
    createDirectories fs (candidate folder i) =
      if fs.exists (candidate folder i) then (fs, false) else (fs.add (candidate folder i), true) := by
  rcases h with h | ⟨a, b, rfl, hb, ha⟩
  · exact createDirectories_here fs _ (name_candidate h i)
  · rw [candidate_snoc]; exact createDirectories_in fs a _ (name_candidate hb i) ha

/-- **C67.** For a name in an existing directory, `create_unique_directory` takes the first candidate at which nothing
exists; it adds that directory and nothing else. It throws exactly if something exists at all of the first `max`
candidates, and then changes nothing. -/
theorem C67_first_free (fs : Fs) (folder : Path) (max : Nat) (h : Ready fs folder) :
    (∀ p, (createLoop fs folder max 0).2 = .ok p ↔
      ∃ i, i < max ∧ p = candidate folder i ∧ fs.exists p = false ∧ ∀ j, j < i → fs.exists (candidate folder j) = true) ∧
    (∀ p, (createLoop fs folder max 0).2 = .ok p → (createLoop fs folder max 0).1 = fs.add p) ∧
    ((createLoop fs folder max 0).2 = .err ↔ ∀ j, j < max → fs.exists (candidate folder j) = true) ∧
    ((createLoop fs folder max 0).2 = .err → (createLoop fs folder max 0).1 = fs) := by
  have hc := ready_create h
  suffices H : ∀ n i, max - i = n →
      (∀ p, (createLoop fs folder max i).2 = .ok p ↔ ∃ k, i ≤ k ∧ k < max ∧ p = candidate folder k ∧
        fs.exists p = false ∧ ∀ j, i ≤ j → j < k → fs.exists (candidate folder j) = true) ∧
      (∀ p, (createLoop fs folder max i).2 = .ok p → (createLoop fs folder max i).1 = fs.add p) ∧
      ((createLoop fs folder max i).2 = .err ↔ ∀ j, i ≤ j → j < max → fs.exists (candidate folder j) = true) ∧
      ((createLoop fs folder max i).2 = .err → (createLoop fs folder max i).1 = fs) by
    obtain ⟨h1, h2, h3, h4⟩ := H _ 0 rfl
    simp only [Nat.zero_le, true_and, forall_const] at h1 h3
    exact ⟨h1, h2, h3, h4⟩
  intro n
  induction n with
  | zero =>
    intro i hi
    rw [createLoop_first fs folder max hc i, if_neg (by omega)]
    refine ⟨fun p => ⟨by rintro ⟨⟩, ?_⟩, by rintro p ⟨⟩, ⟨fun _ j h1 h2 => by omega, fun _ => rfl⟩, fun _ => rfl⟩
    rintro ⟨k, h1, h2, _⟩; omega
  | succ n ih =>
    intro i hi
    rw [createLoop_first fs folder max hc i, if_pos (by omega)]
    by_cases he : fs.exists (candidate folder i) = true
    · rw [if_pos he]
      obtain ⟨h1, h2, h3, h4⟩ := ih (i + 1) (by omega)
      refine ⟨fun p => ?_, h2, ?_, h4⟩
      · rw [h1]
        constructor
        · rintro ⟨k, g1, g2, g3, g4, g5⟩
          refine ⟨k, by omega, g2, g3, g4, fun j j1 j2 => ?_⟩
          rcases Nat.eq_or_lt_of_le j1 with rfl | hlt
          · exact he
          · exact g5 j hlt j2
        · rintro ⟨k, g1, g2, g3, g4, g5⟩
          refine ⟨k, ?_, g2, g3, g4, fun j j1 j2 => g5 j (by omega) j2⟩
          rcases Nat.eq_or_lt_of_le g1 with rfl | hlt
          · rw [g3, he] at g4; cases g4
          · exact hlt
      · rw [h3]
        constructor
        · intro h j j1 j2
          rcases Nat.eq_or_lt_of_le j1 with rfl | hlt
          · exact he
          · exact h j hlt j2
        · intro h j j1 j2; exact h j (by omega) j2
    · rw [if_neg he]
      refine ⟨fun p => ?_, ?_, ?_, by rintro ⟨⟩⟩
      · constructor
        · rintro ⟨⟩; exact ⟨i, Nat.le_refl _, by omega, rfl, by simpa using he, fun j _ _ => by omega⟩
        · rintro ⟨k, g1, g2, g3, g4, g5⟩
          rcases Nat.eq_or_lt_of_le g1 with rfl | hlt
          · rw [g3]
          · exact absurd (g5 i (Nat.le_refl _) hlt) he
      · rintro p ⟨⟩; rfl
      · constructor
        · rintro ⟨⟩
        · intro h; exact absurd (h i (Nat.le_refl _) (by omega)) he

/-- A file system with the directory `r`, the directory `r/x` and the file `r/x (1)`. -/
def demo : Fs := ⟨fun q => if q = ⟨false, ["r".toList]⟩ ∨ q = ⟨false, ["r".toList, "x".toList]⟩ then some .dir
  else if q = ⟨false, ["r".toList, "x (1)".toList]⟩ then some .file else none⟩

example : Ready demo "r/x".toList ∧ (createLoop demo "r/x".toList 5 0).2 = .ok "r/x (2)".toList ∧
    (createLoop demo "r/x".toList 2 0).2 = .err := by
  refine ⟨Or.inr ⟨"r".toList, "x".toList, rfl, ⟨by decide, by decide, by decide⟩, by decide +kernel⟩, ?_, ?_⟩ <;>
    decide +kernel

/-! ## Missing parents -/

/-- A path of names separated by single slashes, relative or absolute. -/
inductive Plain : Path → Prop
  | name (b) : Name b → Plain b
  | root (b) : Name b → Plain ('/' :: b)
  | snoc (a b) : Plain a → Name b → Plain (a ++ '/' :: b)

theorem Plain.ne {p : Path} (h : Plain p) : p ≠ [] := by
  cases h with
  | name _ h => exact h.ne
  | root => simp
  | snoc => simp

theorem Plain.names {p : Path} (h : Plain p) : (place p).names ≠ [] := by
  cases h with
  | name _ h => simp [place_name h]
  | root _ h => simp [place_abs h]
  | snoc a b ha h => simp [place_snoc ha.ne h]

/-- Every entry is in a directory. -/
def Tree (fs : Fs) : Prop :=
  ∀ q : Place, q.names ≠ [] → fs.at? q ≠ none → fs.at? ⟨q.abs, q.names.dropLast⟩ = some .dir

theorem tree_prefix {fs : Fs} (ht : Tree fs) (ab : Bool) (ns : List Str) :
    fs.at? ⟨ab, ns⟩ = some .dir → ∀ l, l <+: ns → fs.at? ⟨ab, l⟩ = some .dir := by
  induction ns using List.reverseRecOn with
  | nil => intro h l hl; rw [List.prefix_nil.1 hl]; exact h
  | append_singleton ns x ih =>
    intro h l hl
    rcases List.prefix_concat_iff.1 hl with rfl | hl
    · exact h
    · refine ih ?_ l hl
      have := ht ⟨ab, ns ++ [x]⟩ (by simp) (by rw [h]; simp)
      simpa using this

/-- **C67.** `create_directories` of a path at which nothing exists, when whatever exists on the way is a directory:
it returns `true`, afterwards the path and every directory on the way exist, and nothing else has changed. -/
theorem C67_create_directories (fs : Fs) (ht : Tree fs) (p : Path) (hp : Plain p) (hnew : fs.at? (place p) = none)
    (hway : ∀ l, l <+: (place p).names → l ≠ [] → fs.at? ⟨(place p).abs, l⟩ = none ∨ fs.at? ⟨(place p).abs, l⟩ = some .dir) :
    (createDirectories fs p).2 = true ∧
    (∀ l, l <+: (place p).names → (createDirectories fs p).1.at? ⟨(place p).abs, l⟩ = some .dir) ∧
    (∀ q, ¬ (q.abs = (place p).abs ∧ q.names <+: (place p).names) → (createDirectories fs p).1.at? q = fs.at? q) := by
  -- the last step, once the directory above is there
  have last : ∀ (f : Fs) (p : Path), p ≠ [] → (place p).names ≠ [] → f.at? (place p) = none →
      f.at? ⟨(place p).abs, (place p).names.dropLast⟩ = some .dir → f.mkdir false p = (f.add p, true) := by
    intro f p h1 h2 h3 h4
    have : f.canMkdir p = true := by
      unfold canMkdir
      exact decide_eq_true ⟨h1, h2, h3, h4⟩
    simp [mkdir, this]
  induction hp with
  | name b hb =>
    have hpl := place_name hb
    have e : createDirectories fs b = (fs.add b, true) := by
      rw [createDirectories]
      simp only [parent_name b hb.free]
      exact last fs b hb.ne (by simp [hpl]) hnew (by simp [hpl, Fs.at?])
    rw [e]
    refine ⟨rfl, fun l hl => ?_, fun q hq => ?_⟩
    · rw [add_at _ _ _ (by simp [hpl])]
      split
      · rfl
      · rename_i hne
        rw [hpl] at hl hne ⊢
        rcases l with _ | ⟨x, l⟩
        · simp [Fs.at?]
        · exfalso; apply hne
          have := hl.length_le
          obtain ⟨t, ht⟩ := hl
          rcases l with _ | ⟨y, l⟩
          · simp at ht; simp [ht.1]
          · simp at this
    · rw [add_at _ _ _ (by simp [hpl]), if_neg]
      rintro rfl; exact hq ⟨rfl, List.prefix_refl _⟩
  | root b hb =>
    have hpl := place_abs hb
    obtain ⟨g1, g2⟩ := parent_snoc [] b hb.free
    simp only [List.nil_append] at g1 g2
    have e0 : createDirectories fs [] = (fs, false) := by
      rw [createDirectories]
      simp [show Path.hasParentPath [] = false by decide, mkdir, canMkdir]
    have e : createDirectories fs ('/' :: b) = (fs.add ('/' :: b), true) := by
      rw [createDirectories]
      simp only [g1, g2, e0]
      have hd : fs.directoryExists [] = false := by simp [directoryExists, stat]
      simp only [hd]
      exact last fs ('/' :: b) (by simp) (by simp [hpl]) hnew (by simp [hpl, Fs.at?])
    rw [e]
    refine ⟨rfl, fun l hl => ?_, fun q hq => ?_⟩
    · rw [add_at _ _ _ (by simp [hpl])]
      split
      · rfl
      · rename_i hne
        rw [hpl] at hl hne ⊢
        rcases l with _ | ⟨x, l⟩
        · simp [Fs.at?]
        · exfalso; apply hne
          have := hl.length_le
          obtain ⟨t, ht⟩ := hl
          rcases l with _ | ⟨y, l⟩
          · simp at ht; simp [ht.1]
          · simp at this
    · rw [add_at _ _ _ (by simp [hpl]), if_neg]
      rintro rfl; exact hq ⟨rfl, List.prefix_refl _⟩
  | snoc a b ha hb ih =>
    have hpl := place_snoc ha.ne hb
    obtain ⟨g1, g2⟩ := parent_snoc a b hb.free
    rw [hpl] at hway hnew
    simp only at hway
    have hway' : ∀ l, l <+: (place a).names → l ≠ [] →
        fs.at? ⟨(place a).abs, l⟩ = none ∨ fs.at? ⟨(place a).abs, l⟩ = some .dir :=
      fun l hl => hway l (hl.trans (List.prefix_append _ _))
    -- the file system before the last step
    obtain ⟨f, e, hf1, hf2⟩ : ∃ f : Fs, createDirectories fs (a ++ '/' :: b) = f.mkdir false (a ++ '/' :: b) ∧
        (∀ l, l <+: (place a).names → f.at? ⟨(place a).abs, l⟩ = some .dir) ∧
        (∀ q, ¬ (q.abs = (place a).abs ∧ q.names <+: (place a).names) → f.at? q = fs.at? q) := by
      rw [createDirectories]
      simp only [g1, g2]
      rcases hway' (place a).names (List.prefix_refl _) ha.names with h0 | h0
      · have hd : fs.directoryExists a = false := by
          simp only [directoryExists, stat, if_neg ha.ne]
          have h0' : fs.at? (place a) = none := h0
          simp [h0']
        simp only [hd]
        obtain ⟨i1, i2, i3⟩ := ih h0 hway'
        exact ⟨_, rfl, i2, i3⟩
      · have hd : fs.directoryExists a = true := by
          simp only [directoryExists, stat, if_neg ha.ne]
          have h0' : fs.at? (place a) = some .dir := h0
          simp [h0']
        simp only [hd]
        exact ⟨fs, rfl, tree_prefix ht _ _ h0, fun _ _ => rfl⟩
    have hlong : ¬ ((place a).names ++ [b]) <+: (place a).names := by
      intro h; have := h.length_le; rw [List.length_append, List.length_singleton] at this; omega
    have hn : f.at? (place (a ++ '/' :: b)) = none := by
      rw [hpl, hf2 _ (fun h => hlong h.2)]; exact hnew
    have hu : f.at? ⟨(place (a ++ '/' :: b)).abs, (place (a ++ '/' :: b)).names.dropLast⟩ = some .dir := by
      rw [hpl]; simpa using hf1 _ (List.prefix_refl _)
    have hne : (place (a ++ '/' :: b)).names ≠ [] := by rw [hpl]; simp
    rw [e, last f _ (by simp) hne hn hu]
    refine ⟨rfl, fun l hl => ?_, fun q hq => ?_⟩
    · rw [add_at _ _ _ hne]
      split
      · rfl
      · rename_i hx
        rw [hpl] at hl hx ⊢
        rcases List.prefix_concat_iff.1 hl with rfl | hl
        · exact absurd rfl hx
        · exact hf1 l hl
    · rw [add_at _ _ _ hne, if_neg (by rintro rfl; exact hq ⟨rfl, List.prefix_refl _⟩)]
      refine hf2 q fun h => hq ?_
      rw [hpl]; exact ⟨h.1, h.2.trans (List.prefix_append _ _)⟩

example : Tree demo ∧ Plain "r/y/z".toList ∧ demo.at? (place "r/y/z".toList) = none ∧
    (createDirectories demo "r/y/z".toList).2 = true := by
  refine ⟨?_, .snoc "r/y".toList "z".toList (.snoc "r".toList "y".toList (.name _ ⟨by decide, by decide, by decide⟩)
    ⟨by decide, by decide, by decide⟩) ⟨by decide, by decide, by decide⟩, by decide +kernel, by decide +kernel⟩
  intro q hq h
  unfold Fs.at? demo at h ⊢
  rw [if_neg hq] at h
  simp only at h ⊢
  split at h
  · rename_i h'
    rcases h' with rfl | rfl <;> decide
  · split at h
    · rename_i h'; subst h'; decide
    · exact absurd rfl h

/-- A path with a slash at the end: the parent is the directory itself, which gets made first, so that `mkdir` of the
path fails. `create_directories` returns `false` although the directory was made, and `create_unique_directory`
returns another directory inside it. -/
theorem C67_trailing_slash_violated :
    (createDirectories ⟨fun _ => none⟩ "a/".toList).2 = false ∧
    (createDirectories ⟨fun _ => none⟩ "a/".toList).1.at? (place "a/".toList) = some .dir ∧
    (createLoop ⟨fun _ => none⟩ "a/".toList 9 0).2 = .ok "a/ (1)".toList := by decide +kernel

/-! ## find_unique_directory -/

/-- **C67.** `find_unique_directory` returns the first candidate that `directory_exists` does not report, and throws
exactly if it reports the first `max` candidates. -/
theorem C67_find (fs : Fs) (folder : Path) (max : Nat) :
    (∀ p, findUniqueDirectory fs folder max = .ok p ↔
      ∃ i, i < max ∧ p = candidate folder i ∧ fs.directoryExists p = false ∧
        ∀ j, j < i → fs.directoryExists (candidate folder j) = true) ∧
    (findUniqueDirectory fs folder max = .err ↔ ∀ j, j < max → fs.directoryExists (candidate folder j) = true) := by
  suffices H : ∀ i,
      (∀ p, findLoop fs folder max i = .ok p ↔ ∃ k, i ≤ k ∧ k < max ∧ p = candidate folder k ∧
        fs.directoryExists p = false ∧ ∀ j, i ≤ j → j < k → fs.directoryExists (candidate folder j) = true) ∧
      (findLoop fs folder max i = .err ↔ ∀ j, i ≤ j → j < max → fs.directoryExists (candidate folder j) = true) by
    obtain ⟨h1, h3⟩ := H 0
    simp only [Nat.zero_le, true_and, forall_const] at h1 h3
    exact ⟨h1, h3⟩
  intro i
  fun_induction findLoop fs folder max i with
  | case1 i hlt he ih =>
    obtain ⟨h1, h3⟩ := ih
    refine ⟨fun p => ?_, ?_⟩
    · rw [h1]
      constructor
      · rintro ⟨k, g1, g2, g3, g4, g5⟩
        refine ⟨k, by omega, g2, g3, g4, fun j j1 j2 => ?_⟩
        rcases Nat.eq_or_lt_of_le j1 with rfl | hlt
        · exact he
        · exact g5 j hlt j2
      · rintro ⟨k, g1, g2, g3, g4, g5⟩
        refine ⟨k, ?_, g2, g3, g4, fun j j1 j2 => g5 j (by omega) j2⟩
        rcases Nat.eq_or_lt_of_le g1 with rfl | hlt
        · rw [g3, he] at g4; cases g4
        · exact hlt
    · rw [h3]
      constructor
      · intro h j j1 j2
        rcases Nat.eq_or_lt_of_le j1 with rfl | hlt
        · exact he
        · exact h j hlt j2
      · intro h j j1 j2; exact h j (by omega) j2
  | case2 i hlt he =>
    refine ⟨fun p => ?_, ?_⟩
    · constructor
      · rintro ⟨⟩; exact ⟨i, Nat.le_refl _, hlt, rfl, by simpa using he, fun j _ _ => by omega⟩
      · rintro ⟨k, g1, g2, g3, g4, g5⟩
        rcases Nat.eq_or_lt_of_le g1 with rfl | hlt
        · rw [g3]
        · exact absurd (g5 i (Nat.le_refl _) hlt) he
    · constructor
      · rintro ⟨⟩
      · intro h; exact absurd (h i (Nat.le_refl _) hlt) he
  | case3 i hlt =>
    refine ⟨fun p => ⟨by rintro ⟨⟩, ?_⟩, ⟨fun _ j h1 h2 => by omega, fun _ => rfl⟩⟩
    rintro ⟨k, h1, h2, _⟩; omega

example : findUniqueDirectory demo "r/x".toList 5 = .ok "r/x (1)".toList := by decide +kernel

/-- The returned path may exist, as a file; and a socket or block device counts as a directory. -/
theorem C67_find_violated :
    (∃ fs folder max p, findUniqueDirectory fs folder max = .ok p ∧ fs.exists p = true) ∧
    (∃ fs : Fs, ∃ p, fs.directoryExists p = true ∧ fs.stat p ≠ some .dir) :=
  ⟨⟨demo, "r/x".toList, 5, "r/x (1)".toList, by decide +kernel, by decide +kernel⟩,
    ⟨fun _ => some .special⟩, "s".toList, by decide +kernel, by decide +kernel⟩

end Dir
end Xo
