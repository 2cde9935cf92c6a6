import Verif.Model.Include
import Verif.Props.C21_ZmlTermination

/-!
C66: loading files that include files.
-/
namespace Xo
open PropNode

/-! ### ZML -/
namespace Zml
namespace Spec

/-- The file `a` names the file `b` behind `<<`. -/
def Includes (fs : Path → Option Str) (a b : Path) : Prop :=
  ∃ text f, fs a = some text ∧ Named (lexAll text).1 f ∧ includePath a f = .ok b

/-- The text of `a` begins with an include of `b`. -/
def Starts (fs : Path → Option Str) (a b : Path) : Prop :=
  ∃ text f ts fin, fs a = some text ∧ lexAll text = (['<', '<'] :: f :: ['>', '>'] :: ts, fin) ∧ includePath a f = .ok b

end Spec
open Spec

/-- **C66 (partial: ZML files without cycles).** When every file only includes files of lower rank, so that there is no cycle, and no file
ends with a backslash, loading terminates. -/
theorem C66_zml_partial (fs : Path → Option Str) (throws : Bool) (rank : Path → Nat)
    (hr : ∀ a b, Includes fs a b → rank b < rank a) (hb : ∀ a text, fs a = some text → text.getLast? ≠ some '\\') (file : Path) :
    ∀ n, rank file < n → loadZml fs throws n file ≠ .div := by
  intro n
  induction n generalizing file with
  | zero => intro h; omega
  | succ n ih =>
    intro h
    rw [loadZml]
    cases hf : fs file with
    | none => simp
    | some text =>
      refine C21_terminates_partial _ text ?_ (hb _ _ hf)
      intro f hn
      simp only [includeKids]
      cases hg : includePath file f with
      | err => simp
      | ub => simp
      | ok g =>
        have := hr file g ⟨text, f, hf, hn, hg⟩
        have h2 := ih g (by omega)
        simp only
        split <;> simp_all

/-- **C66 is violated** by ZML: when files include each other in a cycle of any length (or in an endless chain), no number of steps is
enough. -/
theorem C66_zml_cycle_violated (fs : Path → Option Str) (throws : Bool) (c : Nat → Path) (h : ∀ i, Starts fs (c i) (c (i + 1))) :
    ∀ n i, loadZml fs throws n (c i) = .div := by
  intro n
  induction n with
  | zero => intro i; rfl
  | succ n ih =>
    intro i
    obtain ⟨text, f, ts, fin, h1, h2, h3⟩ := h i
    rw [loadZml, h1]
    simp only [parse, h2, List.length_cons]
    rw [layer.eq_def]
    simp [next, includeKids, h3, ih (i + 1)]

/-- A file that includes itself. -/
example : loadZml (fun p => if p = "d/a".toList then some "<< a >>".toList else none) true 7 "d/a".toList = .div :=
  C66_zml_cycle_violated _ _ (fun _ => "d/a".toList) (fun _ => ⟨"<< a >>".toList, ['a'], [], .eof, by decide, by decide +kernel, by
    decide +kernel⟩) 7 0

/-- Files without cycle: `a` includes `b`. -/
example : ∃ n, loadZml (fun p => if p = "a".toList then some "<< b >>".toList else if p = "b".toList then some "x = 1".toList else none)
    true n "a".toList ≠ .div := by
  refine ⟨2, C66_zml_partial _ _ (fun p => if p = "a".toList then 1 else 0) ?_ ?_ _ 2 (by decide)⟩
  · rintro a b ⟨text, f, h1, ⟨x, y, h2⟩, h3⟩
    simp only at h1
    split at h1
    · next ha =>
      subst ha
      cases h1
      have hl : (lexAll "<< b >>".toList).1 = ["<<".toList, "b".toList, ">>".toList] := by decide +kernel
      rw [hl] at h2
      have hf : f = ['b'] := by
        rcases x with _ | ⟨x0, _ | ⟨x1, _ | ⟨x2, _ | ⟨x3, x⟩⟩⟩⟩ <;> simp at h2
        exact h2.1.symm
      subst hf
      have : includePath "a".toList ['b'] = .ok ['b'] := by decide +kernel
      rw [this] at h3
      cases h3
      decide
    · split at h1
      · cases h1
        have hl : (lexAll "x = 1".toList).1 = ["x".toList, "=".toList, "1".toList] := by decide +kernel
        rw [hl] at h2
        rcases x with _ | ⟨x0, _ | ⟨x1, _ | ⟨x2, _ | ⟨x3, x⟩⟩⟩⟩ <;> simp at h2
      · cases h1
  · intro a text h
    split at h
    · cases h; decide
    · split at h
      · cases h; decide
      · cases h
end Zml

/-! ### Include nodes -/

namespace Spec

mutual
/-- The number of nodes below with the given key. -/
def count (dir : Str) : PropNode → Nat
  | .mk _ ks _ => countKids dir ks
def countKids (dir : Str) : Kids → Nat
  | [] => 0
  | (k, c) :: cs => (if k = dir then 1 else 0) + count dir c + countKids dir cs
end

/-- The file `a` has an include node for `b` among its items. -/
def HasInclude (fs : Path → Out PropNode) (dir : Str) (a b : Path) : Prop :=
  ∃ pn c m, fs a = .ok pn ∧ (dir, c) ∈ pn.kids ∧ includeInfo a c = .ok (b, m)

end Spec
open Spec

mutual
/-- Number of nodes. -/
def size : PropNode → Nat
  | .mk _ ks _ => 1 + sizeKids ks
def sizeKids : Kids → Nat
  | [] => 0
  | (_, c) :: cs => size c + sizeKids cs
end

theorem count_eq (dir : Str) (n : PropNode) : count dir n = countKids dir n.kids := by
  obtain ⟨v, ks, a⟩ := n; rfl

theorem size_eq (n : PropNode) : size n = 1 + sizeKids n.kids := by
  obtain ⟨v, ks, a⟩ := n; rfl

theorem countKids_append (dir : Str) (a b : Kids) : countKids dir (a ++ b) = countKids dir a + countKids dir b := by
  induction a with
  | nil => simp [countKids]
  | cons e a ih => obtain ⟨k, c⟩ := e; simp only [List.cons_append, countKids, ih]; omega

theorem countKids_updKid (dir k : Str) (f : PropNode → PropNode) (hf : ∀ x, count dir (f x) ≤ count dir x) (ks : Kids) :
    countKids dir (updKid k f ks) ≤ countKids dir ks := by
  induction ks with
  | nil => simp [updKid]
  | cons e ks ih =>
    obtain ⟨k', c⟩ := e
    rw [updKid]
    split
    · have := hf c; simp only [countKids]; omega
    · simp only [countKids]; omega

/-- Merging a tree without include nodes does not add any. -/
theorem count_merge (dir : Str) (m : PropNode) : ∀ n, count dir m = 0 → count dir (merge false n m) ≤ count dir n := by
  induction m using PropNode.ind with
  | h v ks a ih =>
    intro n hm
    rw [merge, count_eq dir n]
    simp only [count] at hm ⊢
    have aux : ∀ (l : Kids), (∀ k c, (k, c) ∈ l → (k, c) ∈ ks) → countKids dir l = 0 → ∀ xs,
        countKids dir (mergeKids false xs l) ≤ countKids dir xs := by
      intro l
      induction l with
      | nil => intro _ _ xs; rw [mergeKids]; exact Nat.le_refl _
      | cons e l ihl =>
        obtain ⟨k, c⟩ := e
        intro hsub h0 xs
        simp only [countKids] at h0
        rw [mergeKids]
        refine Nat.le_trans (ihl (fun k c h => hsub k c (by simp [h])) (by omega) _) ?_
        split
        · exact countKids_updKid dir k _ (fun x => ih k c (hsub k c (by simp)) x (by omega)) xs
        · rw [countKids_append]
          simp only [countKids]
          omega
    exact aux ks (fun _ _ h => h) hm _

theorem countKids_mergeKids (dir : Str) (xs l : Kids) (h : countKids dir l = 0) :
    countKids dir (mergeKids false xs l) ≤ countKids dir xs := by
  have := count_merge dir (.mk [] l false) (.mk [] xs false) h
  rw [merge] at this
  exact this

theorem count_setAccessed (dir : Str) (b : Bool) (n : PropNode) : count dir (n.setAccessedRec b) = count dir n := by
  induction n using PropNode.ind with
  | h v ks a ih =>
    rw [setAccessedRec]
    simp only [count]
    have aux : ∀ (l : Kids), (∀ k c, (k, c) ∈ l → (k, c) ∈ ks) → countKids dir (setAccessedRecKids b l) = countKids dir l := by
      intro l
      induction l with
      | nil => intro _; rfl
      | cons e l ihl =>
        obtain ⟨k, c⟩ := e
        intro hsub
        simp only [setAccessedRecKids, countKids]
        rw [ih k c (hsub k c (by simp)), ihl (fun k c h => hsub k c (by simp [h]))]
    exact aux ks (fun _ _ h => h)

/-- More steps, and a loader that needs fewer steps, do not change the result. -/
theorem resolveKids_mono {l1 l2 : Path → Out PropNode} (hl : ∀ g, l1 g ≠ .div → l2 g = l1 g) (dir : Str) (file : Path) :
    ∀ (n m : Nat) (done rest : Kids), n ≤ m → resolveKids l1 dir file n done rest ≠ .div →
      resolveKids l2 dir file m done rest = resolveKids l1 dir file n done rest := by
  intro n
  induction n with
  | zero => intro m done rest _ h; exact absurd (by rw [resolveKids]) h
  | succ n ih =>
    intro m done rest hm h
    obtain ⟨m, rfl⟩ : ∃ m', m = m' + 1 := ⟨m - 1, by omega⟩
    have hnm : n ≤ m := by omega
    cases rest with
    | nil => rw [resolveKids, resolveKids]
    | cons e rs =>
      obtain ⟨k, c⟩ := e
      rw [resolveKids] at h ⊢
      conv_rhs => rw [resolveKids]
      by_cases hk : k = dir
      · simp only [if_pos hk] at h ⊢
        cases hi : includeInfo file c with
        | err => rfl
        | ub => rfl
        | ok r =>
          obtain ⟨g, mm⟩ := r
          simp only [hi] at h ⊢
          have hlg : l1 g ≠ .div := by
            intro e; rw [e] at h; exact h rfl
          rw [hl g hlg]
          cases hg : l1 g with
          | err => rfl
          | ub => rfl
          | div => rfl
          | ok inc =>
            simp only [hg] at h ⊢
            split
            · next e he =>
              rw [he] at h
              simp only at h
              split
              · next hmm => rw [if_pos hmm] at h; exact ih m _ _ hnm h
              · next hmm => rw [if_neg hmm] at h; exact ih m _ _ hnm h
            · rfl
      · simp only [if_neg hk] at h ⊢
        have h1 : resolveKids l1 dir file n [] c.kids ≠ .div := by
          intro e; rw [e] at h; exact h rfl
        rw [ih m _ _ hnm h1]
        cases hc : resolveKids l1 dir file n [] c.kids with
        | err => rfl
        | ub => rfl
        | div => rfl
        | ok ks =>
          simp only [hc] at h ⊢
          exact ih m _ _ hnm h

/-- The results of resolving contain no include nodes. -/
theorem resolveKids_clean {load : Path → Out PropNode} {dir : Str} {file : Path}
    (hl : ∀ g t, load g = .ok t → count dir t = 0) :
    ∀ (n : Nat) (done rest ks : Kids), countKids dir done = 0 → resolveKids load dir file n done rest = .ok ks → countKids dir ks = 0 := by
  intro n
  induction n with
  | zero => intro done rest ks _ h; rw [resolveKids] at h; cases h
  | succ n ih =>
    intro done rest ks hd h
    cases rest with
    | nil => rw [resolveKids] at h; cases h; exact hd
    | cons e rs =>
      obtain ⟨k, c⟩ := e
      rw [resolveKids] at h
      split at h
      · split at h
        · split at h
          · next t hg =>
            split at h
            · split at h
              · exact ih _ _ _ rfl h
              · exact ih _ _ _ hd h
            · cases h
          · cases h
          · cases h
          · cases h
        · cases h
        · cases h
      · next hk =>
        split at h
        · next ks' hc =>
          refine ih _ _ _ ?_ h
          have := ih [] c.kids ks' rfl hc
          rw [countKids_append, hd]
          simp only [countKids, if_neg hk, count_eq, PropNode.withKids, PropNode.kids]
          omega
        · cases h
        · cases h
        · cases h

/-- There is a sufficient number of steps. -/
theorem resolveKids_exists {L : Nat → Path → Out PropNode} (hmono : ∀ n m g, n ≤ m → L n g ≠ .div → L m g = L n g)
    (hex : ∀ g, ∃ n, L n g ≠ .div) (dir : Str) (hcl : ∀ n g t, L n g = .ok t → count dir t = 0) (file : Path) :
    ∀ (a b : Nat) (done rest : Kids), countKids dir (done ++ rest) = a → sizeKids rest = b →
      ∃ n, resolveKids (L n) dir file n done rest ≠ .div := by
  intro a
  induction a using Nat.strongRecOn with
  | ind a iha =>
    intro b
    induction b using Nat.strongRecOn generalizing a with
    | ind b ihb =>
      intro done rest ha hb
      cases rest with
      | nil => exact ⟨1, by rw [resolveKids]; simp⟩
      | cons e rs =>
        obtain ⟨k, c⟩ := e
        by_cases hk : k = dir
        · cases hi : includeInfo file c with
          | err => exact ⟨1, by rw [resolveKids]; simp [hk, hi]⟩
          | ub => exact ⟨1, by rw [resolveKids]; simp [hk, hi]⟩
          | ok r =>
            obtain ⟨g, m⟩ := r
            obtain ⟨n1, hn1⟩ := hex g
            have hca : countKids dir (done ++ rs) + 1 ≤ a := by
              rw [← ha, countKids_append, countKids_append]; simp only [countKids, if_pos hk]; omega
            -- the list that the loop goes on with
            have hcont : ∀ inc e, L n1 g = .ok inc → inc.kids = [e] → ∃ n2,
                (if m = true then resolveKids (L n2) dir file n2 [] (mergeKids false (done ++ rs) e.2.kids)
                  else resolveKids (L n2) dir file n2 done (e :: rs)) ≠ .div := by
              intro inc e hg he
              have h0 := hcl n1 g inc hg
              rw [count_eq, he] at h0
              obtain ⟨k', c'⟩ := e
              simp only [countKids] at h0
              split
              · refine iha (countKids dir (mergeKids false (done ++ rs) c'.kids)) ?_ _ [] _ (by rw [List.nil_append]) rfl
                have := countKids_mergeKids dir (done ++ rs) c'.kids (by rw [← count_eq]; omega)
                omega
              · refine iha (countKids dir (done ++ (k', c') :: rs)) ?_ _ done _ rfl rfl
                rw [countKids_append] at hca ⊢
                simp only [countKids]
                omega
            cases hg : L n1 g with
            | div => exact absurd hg hn1
            | err => exact ⟨n1 + 1, by rw [resolveKids]; simp [hk, hi, hmono n1 (n1 + 1) g (by omega) hn1, hg]⟩
            | ub => exact ⟨n1 + 1, by rw [resolveKids]; simp [hk, hi, hmono n1 (n1 + 1) g (by omega) hn1, hg]⟩
            | ok inc =>
              by_cases he : ∃ e, inc.kids = [e]
              · obtain ⟨e, he⟩ := he
                obtain ⟨n2, hn2⟩ := hcont inc e hg he
                refine ⟨max n1 n2 + 1, ?_⟩
                rw [resolveKids]
                simp only [if_pos hk, hi, hmono n1 (max n1 n2 + 1) g (by omega) hn1, hg, he]
                have hmo : ∀ g, L n2 g ≠ .div → L (max n1 n2 + 1) g = L n2 g := fun g hd => hmono n2 _ g (by omega) hd
                split at hn2
                · next hm => rw [if_pos hm, resolveKids_mono hmo dir file n2 _ _ _ (by omega) hn2]; exact hn2
                · next hm => rw [if_neg hm, resolveKids_mono hmo dir file n2 _ _ _ (by omega) hn2]; exact hn2
              · refine ⟨n1 + 1, ?_⟩
                rw [resolveKids]
                simp only [if_pos hk, hi, hmono n1 (n1 + 1) g (by omega) hn1, hg]
                split
                · next e h => exact absurd ⟨e, h⟩ he
                · simp
        · have go : ∀ done' rest', countKids dir (done' ++ rest') ≤ a → sizeKids rest' < b →
              ∃ n, resolveKids (L n) dir file n done' rest' ≠ .div := by
            intro done' rest' h1 h2
            rcases Nat.lt_or_eq_of_le h1 with h1 | h1
            · exact iha _ h1 _ _ _ rfl rfl
            · exact ihb _ h2 a iha _ _ h1 rfl
          simp only [sizeKids] at hb
          rw [countKids_append] at ha
          simp only [countKids, if_neg hk] at ha
          obtain ⟨n1, hn1⟩ := go [] c.kids (by rw [List.nil_append, ← count_eq]; omega) (by rw [size_eq] at hb; omega)
          have step : ∀ m, n1 ≤ m → resolveKids (L (m + 1)) dir file m [] c.kids = resolveKids (L n1) dir file n1 [] c.kids :=
            fun m hm => resolveKids_mono (fun g hd => hmono n1 _ g (by omega) hd) dir file n1 m _ _ hm hn1
          cases hc : resolveKids (L n1) dir file n1 [] c.kids with
          | div => exact absurd hc hn1
          | err => exact ⟨n1 + 1, by rw [resolveKids, if_neg hk, step n1 (Nat.le_refl _), hc]; simp⟩
          | ub => exact ⟨n1 + 1, by rw [resolveKids, if_neg hk, step n1 (Nat.le_refl _), hc]; simp⟩
          | ok ks =>
            have h0 := resolveKids_clean (hcl n1) n1 [] c.kids ks rfl hc
            obtain ⟨n2, hn2⟩ := go (done ++ [(k, c.withKids ks)]) rs (by
              rw [countKids_append, countKids_append]
              simp only [countKids, if_neg hk, count_eq, PropNode.withKids, PropNode.kids]
              omega) (by rw [size_eq] at hb; omega)
            refine ⟨max n1 n2 + 1, ?_⟩
            rw [resolveKids, if_neg hk, step _ (by omega), hc]
            simp only
            rw [resolveKids_mono (fun g hd => hmono n2 _ g (by omega) hd) dir file n2 _ _ _ (by omega) hn2]
            exact hn2

theorem loadInclude_mono (fs : Path → Out PropNode) (dir : Str) : ∀ (r n m : Nat) (file : Path), n ≤ m →
    loadInclude fs dir n r file ≠ .div → loadInclude fs dir m r file = loadInclude fs dir n r file := by
  intro r
  induction r with
  | zero => intro n m file _ _; rfl
  | succ r ih =>
    intro n m file hnm h
    rw [loadInclude] at h ⊢
    conv_rhs => rw [loadInclude]
    cases hf : fs file with
    | err => rfl
    | ub => rfl
    | div => rfl
    | ok pn =>
      simp only [hf] at h ⊢
      have h1 : resolveKids (loadInclude fs dir n r) dir file n [] pn.kids ≠ .div := by
        intro e; rw [e] at h; exact h rfl
      rw [resolveKids_mono (fun g hd => ih n m g hnm hd) dir file n m _ _ hnm h1]

theorem loadInclude_clean (fs : Path → Out PropNode) (dir : Str) (n : Nat) : ∀ (r : Nat) (file : Path) (t : PropNode),
    loadInclude fs dir n r file = .ok t → count dir t = 0 := by
  intro r
  induction r with
  | zero => intro file t h; cases h
  | succ r ih =>
    intro file t h
    rw [loadInclude] at h
    split at h
    · split at h
      · next ks hr =>
        cases h
        rw [count_setAccessed, count_eq]
        exact resolveKids_clean (fun g t hg => ih g t hg) n [] _ ks rfl hr
      · cases h
      · cases h
      · cases h
    · cases h
    · cases h
    · cases h

/-- **C66.** Loading with include nodes terminates for all files, also those that include each other: there is a number of steps from
which on the result is the same tree or error. -/
theorem C66_include_terminates (fs : Path → Out PropNode) (hfs : ∀ g, fs g ≠ .div) (dir : Str) (file : Path) :
    ∃ n r, r ≠ .div ∧ ∀ m, n ≤ m → loadFileWithInclude fs dir m file = r := by
  have h : ∀ r file, ∃ n, loadInclude fs dir n r file ≠ .div := by
    intro r
    induction r with
    | zero => intro file; exact ⟨0, by simp [loadInclude]⟩
    | succ r ih =>
      intro file
      cases hf : fs file with
      | div => exact absurd hf (hfs file)
      | err => exact ⟨0, by simp [loadInclude, hf]⟩
      | ub => exact ⟨0, by simp [loadInclude, hf]⟩
      | ok pn =>
        obtain ⟨n, hn⟩ := resolveKids_exists (L := fun n => loadInclude fs dir n r)
          (fun n m g hnm hd => loadInclude_mono fs dir r n m g hnm hd) ih dir
          (fun n g t hg => loadInclude_clean fs dir n r g t hg) file _ _ [] pn.kids rfl rfl
        refine ⟨n, ?_⟩
        rw [loadInclude, hf]
        simp only
        split <;> simp_all
  obtain ⟨n, hn⟩ := h 100 file
  exact ⟨n, _, hn, fun m hm => loadInclude_mono fs dir 100 n m file hm hn⟩

/-- **C66.** A tree that is returned has no include nodes left, at any depth. -/
theorem C66_include_resolved (fs : Path → Out PropNode) (dir : Str) (n : Nat) (file : Path) (t : PropNode)
    (h : loadFileWithInclude fs dir n file = .ok t) : count dir t = 0 := loadInclude_clean fs dir n 100 file t h

theorem mem_updKid_ne {k k' : Str} {c : PropNode} {f : PropNode → PropNode} {ks : Kids} (h : (k, c) ∈ ks) (hne : k' ≠ k) :
    (k, c) ∈ updKid k' f ks := by
  induction ks with
  | nil => cases h
  | cons e ks ih =>
    obtain ⟨k2, c2⟩ := e
    rw [updKid]
    split
    · next hk =>
      rcases List.mem_cons.1 h with h | h
      · cases h; exact absurd hk.symm hne
      · exact List.mem_cons_of_mem _ h
    · rcases List.mem_cons.1 h with h | h
      · rw [h]; exact List.mem_cons_self
      · exact List.mem_cons_of_mem _ (ih h)

theorem mem_mergeKids {dir : Str} {c : PropNode} : ∀ {l ks : Kids}, (dir, c) ∈ ks → countKids dir l = 0 →
    (dir, c) ∈ mergeKids false ks l := by
  intro l
  induction l with
  | nil => intro ks h _; rw [mergeKids]; exact h
  | cons e l ih =>
    obtain ⟨k, c'⟩ := e
    intro ks h h0
    simp only [countKids] at h0
    have hk : k ≠ dir := by intro e; rw [if_pos e] at h0; omega
    rw [mergeKids]
    refine ih ?_ (by omega)
    split
    · exact mem_updKid_ne h hk
    · exact List.mem_append_left _ h

/-- An include node whose file cannot be loaded makes resolving fail. -/
theorem resolveKids_fail {load : Path → Out PropNode} {dir : Str} {file g : Path} {c : PropNode} {m : Bool}
    (hcl : ∀ g t, load g = .ok t → count dir t = 0) (hi : includeInfo file c = .ok (g, m)) (hg : ∀ t, load g ≠ .ok t) :
    ∀ (n : Nat) (done rest ks : Kids), (dir, c) ∈ rest → resolveKids load dir file n done rest ≠ .ok ks := by
  intro n
  induction n with
  | zero => intro done rest ks _ h; rw [resolveKids] at h; cases h
  | succ n ih =>
    intro done rest ks hm h
    cases rest with
    | nil => cases hm
    | cons e rs =>
      obtain ⟨k, c'⟩ := e
      rw [resolveKids] at h
      by_cases hc : (dir, c) = (k, c')
      · cases hc
        rw [if_pos rfl, hi] at h
        simp only at h
        split at h
        · next t ht => exact hg t ht
        · cases h
        · cases h
        · cases h
      · have hm' : (dir, c) ∈ rs := (List.mem_cons.1 hm).resolve_left hc
        split at h
        · split at h
          · split at h
            · next t ht =>
              split at h
              · next e he =>
                have h0 := hcl _ t ht
                rw [count_eq, he] at h0
                obtain ⟨k2, c2⟩ := e
                simp only [countKids] at h0
                split at h
                · exact ih _ _ _ (mem_mergeKids (List.mem_append_right _ hm') (by rw [← count_eq]; simp only; omega)) h
                · exact ih _ _ _ (List.mem_cons_of_mem _ hm') h
              · cases h
            · cases h
            · cases h
            · cases h
          · cases h
          · cases h
        · split at h
          · exact ih _ _ _ hm' h
          · cases h
          · cases h
          · cases h

/-- **C66.** Files that include each other in a cycle (or an endless chain) are reported: no tree is returned. -/
theorem C66_include_cycle (fs : Path → Out PropNode) (dir : Str) (c : Nat → Path) (h : ∀ i, HasInclude fs dir (c i) (c (i + 1)))
    (n : Nat) (t : PropNode) : loadFileWithInclude fs dir n (c 0) ≠ .ok t := by
  have aux : ∀ r i t, loadInclude fs dir n r (c i) ≠ .ok t := by
    intro r
    induction r with
    | zero => intro i t h; cases h
    | succ r ih =>
      intro i t ht
      obtain ⟨pn, x, m, h1, h2, h3⟩ := h i
      rw [loadInclude, h1] at ht
      simp only at ht
      split at ht
      · next ks hk =>
        exact resolveKids_fail (fun g t hg => loadInclude_clean fs dir n r g t hg) h3 (ih (i + 1)) n [] _ ks h2 hk
      · cases ht
      · cases ht
      · cases ht
  exact aux 100 0 t

/-- A file with an include node for itself. -/
private def selfFs : Path → Out PropNode := fun p =>
  if p = "a".toList then .ok (.mk [] [(['r'], .leaf ['1']), ("INCLUDE".toList, .mk [] [("file".toList, .leaf ['a'])] false)] false)
  else .err

example : (∀ g, selfFs g ≠ .div) ∧ HasInclude selfFs "INCLUDE".toList ['a'] ['a'] := by
  refine ⟨fun g => ?_, ?_⟩
  · unfold selfFs; split <;> simp
  · exact ⟨_, .mk [] [("file".toList, .leaf ['a'])] false, false, rfl, by simp [PropNode.kids], by rfl⟩

/-- A file that includes another one. -/
private def twoFs : Path → Out PropNode := fun p =>
  if p = "a".toList then .ok (.mk [] [("INCLUDE".toList, .mk [] [("file".toList, .leaf ['b'])] false), (['r'], .leaf ['1'])] false)
  else if p = "b".toList then .ok (.mk [] [(['x'], .leaf ['2'])] false)
  else .err

example : loadFileWithInclude twoFs "INCLUDE".toList 5 "a".toList = .ok (.mk [] [(['x'], .leaf ['2']), (['r'], .leaf ['1'])] false) := by
  rfl

/-! ### Names of files, and switches -/

/-- **C66.** An absolute name of an included file is used as it is; other names count from the folder of the including file. -/
theorem C66_include_path (file f : Path) : Zml.includePath file f =
    (if f.head? = some '/' ∨ f.head? = some '~' ∨ ':' ∈ f then .ok f else file.parentPath.slash f) := by
  unfold Zml.includePath Path.isAbsolute
  by_cases h : f.head? = some '/' ∨ f.head? = some '~' ∨ ':' ∈ f
  · rw [if_pos h, if_pos (by simpa [or_assoc] using h)]
  · rw [if_neg h, if_neg (by simpa [or_assoc] using h)]

example : Zml.includePath "d/a".toList "/b".toList = .ok "/b".toList ∧ Zml.includePath "d/a".toList "b".toList = .ok "d/b".toList := by
  decide +kernel

/-- The switch `merge_children` is on for `1`, `true` and `yes`, off for `0`, `false` and `no`, and anything else is an error. -/
theorem C66_switch (s : Str) : (strToBool s = some true ↔ s = "1".toList ∨ s = "true".toList ∨ s = "yes".toList) ∧
    (strToBool s = some false ↔ s = "0".toList ∨ s = "false".toList ∨ s = "no".toList) := by
  have hd : ∀ s : Str, s ∈ ["1".toList, "true".toList, "yes".toList] → s ∉ ["0".toList, "false".toList, "no".toList] := by decide
  unfold strToBool
  constructor
  · constructor
    · intro h
      split at h
      · next hm => simpa only [List.mem_cons, List.not_mem_nil, or_false] using hm
      · split at h <;> cases h
    · intro h
      rw [if_pos (by simpa only [List.mem_cons, List.not_mem_nil, or_false] using h)]
  · constructor
    · intro h
      split at h
      · cases h
      · split at h
        · next hm => simpa only [List.mem_cons, List.not_mem_nil, or_false] using hm
        · cases h
    · intro h
      have hm : s ∈ ["0".toList, "false".toList, "no".toList] := by simpa only [List.mem_cons, List.not_mem_nil, or_false] using h
      rw [if_neg (fun h' => hd s h' hm), if_pos hm]

end Xo
