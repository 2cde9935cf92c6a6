import Verif.Model.FileSteps
import Verif.Props.C107_TextFiles

/-!
C146: files when a program ends inside a call, and when several programs use the same file.
-/
namespace Xo.Steps
open Xo Dir Dir.Fs Outc TextF
open _root_.Xo.TextF.Spec

namespace Spec

/-- Some calls that have not begun, on a file. -/
def begin_ (old : Option Str) (cs : List (Bool × Str)) : World := ⟨old, cs.map fun c => ⟨c.1, c.2, .start⟩⟩

/-- Call `i` has returned. -/
def Returned (w : World) (i : Nat) : Prop := ∃ c, w.calls[i]? = some c ∧ c.phase = .done

/-- The pieces of one call, in the order in which they were written. -/
def piecesOf (log : List (Nat × Str)) (i : Nat) : Str := ((log.filter fun e => e.1 == i).map (·.2)).flatten

/-- Everything that was written. -/
def allPieces (log : List (Nat × Str)) : Str := (log.map (·.2)).flatten

end Spec
open Spec

/-! ### Appending -/

/-- How much of its text a call has handed over. -/
def handed (c : Call) (s : Str) : Prop := match c.phase with
  | .start => s = []
  | .writing _ rest => s ++ rest = c.text
  | .done => s = c.text
  | .dead => s <+: c.text

structure AppInv (old : Option Str) (cs : List (Bool × Str)) (w : World) (log : List (Nat × Str)) : Prop where
  file : w.file = old ∧ log = [] ∨ w.file = some (old.getD [] ++ allPieces log)
  len : w.calls.length = cs.length
  calls : ∀ i c, w.calls[i]? = some c → c.app = true ∧ (∃ b, cs[i]? = some (b, c.text)) ∧ handed c (piecesOf log i)
  ids : ∀ e ∈ log, e.1 < cs.length

theorem pieces_snoc (log : List (Nat × Str)) (i j : Nat) (s : Str) : piecesOf (log ++ [(j, s)]) i = piecesOf log i ++ (if j = i then s else []) := by
  unfold piecesOf
  rw [List.filter_append, List.map_append, List.flatten_append]
  by_cases h : j = i
  · subst h; simp
  · simp [h]

theorem all_snoc (log : List (Nat × Str)) (j : Nat) (s : Str) : allPieces (log ++ [(j, s)]) = allPieces log ++ s := by
  unfold allPieces
  simp

/-- The calls after one call was replaced. -/
theorem set_get {α : Type} (l : List α) (i j : Nat) (a b : α) (h : (l.set i a)[j]? = some b) : i = j ∧ a = b ∨ i ≠ j ∧ l[j]? = some b := by
  rw [List.getElem?_set] at h
  split at h
  · next e =>
    split at h
    · exact Or.inl ⟨e, by simpa using h⟩
    · cases h
  · next e => exact Or.inr ⟨e, h⟩

theorem app_step {old : Option Str} {cs : List (Bool × Str)} {w : World} {log : List (Nat × Str)} (h : AppInv old cs w log) (i : Nat) (a : Act) :
    ∃ log', AppInv old cs (step w i a) log' := by
  unfold step
  cases hc : w.calls[i]? with
  | none => exact ⟨log, h⟩
  | some c =>
    obtain ⟨h1, ⟨b, h2⟩, h3⟩ := h.calls i c hc
    have hi : i < cs.length := by
      rw [← h.len]
      exact (List.getElem?_eq_some_iff.1 hc).1
    have keep : ∀ c' : Call, c'.app = c.app → c'.text = c.text → handed c' (piecesOf log i) → AppInv old cs ⟨w.file, w.calls.set i c'⟩ log := by
      intro c' e1 e2 e3
      refine ⟨h.file, by rw [List.length_set]; exact h.len, ?_, h.ids⟩
      intro j c'' hj
      rcases set_get _ _ _ _ _ hj with ⟨rfl, rfl⟩ | ⟨_, hj⟩
      · exact ⟨e1.trans h1, ⟨b, by rw [e2]; exact h2⟩, e3⟩
      · exact h.calls j c'' hj
    have same : AppInv old cs ⟨w.file, w.calls.set i c⟩ log := keep c rfl rfl h3
    simp only
    cases a with
    | openFile =>
      unfold callStep
      cases hp : c.phase with
      | start =>
        simp only [if_pos h1]
        have h3' : piecesOf log i = [] := by simpa [handed, hp] using h3
        have k := keep { c with phase := .writing 0 c.text } rfl rfl (by simp [handed, h3'])
        refine ⟨log, ⟨?_, k.len, k.calls, k.ids⟩⟩
        rcases h.file with ⟨e1, e2⟩ | e1
        · right; simp [e1, e2, allPieces]
        · right; simp [e1]
      | writing pos rest => exact ⟨log, same⟩
      | done => exact ⟨log, same⟩
      | dead => exact ⟨log, same⟩
    | write n =>
      unfold callStep
      cases hp : c.phase with
      | start => exact ⟨log, same⟩
      | writing pos rest =>
        simp only [if_pos h1]
        have h3' : piecesOf log i ++ rest = c.text := by simpa [handed, hp] using h3
        refine ⟨log ++ [(i, rest.take n)], ⟨?_, by simp [h.len], ?_, ?_⟩⟩
        · right
          rw [all_snoc]
          rcases h.file with ⟨e1, e2⟩ | e1
          · simp [e1, e2, allPieces]
          · simp [e1]
        · intro j c'' hj
          rcases set_get _ _ _ _ _ hj with ⟨rfl, rfl⟩ | ⟨hne, hj⟩
          · refine ⟨h1, ⟨b, h2⟩, ?_⟩
            show piecesOf _ i ++ rest.drop n = c.text
            rw [pieces_snoc, if_pos rfl, List.append_assoc, List.take_append_drop, h3']
          · obtain ⟨k1, k2, k3⟩ := h.calls j c'' hj
            refine ⟨k1, k2, ?_⟩
            rw [pieces_snoc, if_neg hne, List.append_nil]
            exact k3
        · intro e he
          rcases List.mem_append.1 he with he | he
          · exact h.ids e he
          · rw [List.mem_singleton] at he
            rw [he]
            exact hi
      | done => exact ⟨log, same⟩
      | dead => exact ⟨log, same⟩
    | close =>
      unfold callStep
      cases hp : c.phase with
      | start => exact ⟨log, same⟩
      | writing pos rest =>
        cases rest with
        | nil => exact ⟨log, keep _ rfl rfl (by simpa [handed, hp] using h3)⟩
        | cons x xs => exact ⟨log, same⟩
      | done => exact ⟨log, same⟩
      | dead => exact ⟨log, same⟩
    | die =>
      unfold callStep
      cases hp : c.phase with
      | start =>
        have h3' : piecesOf log i = [] := by simpa [handed, hp] using h3
        exact ⟨log, keep _ rfl rfl (by simp [handed, h3'])⟩
      | writing pos rest =>
        have h3' : piecesOf log i ++ rest = c.text := by simpa [handed, hp] using h3
        exact ⟨log, keep _ rfl rfl (by simpa [handed] using ⟨rest, h3'⟩)⟩
      | done => exact ⟨log, same⟩
      | dead =>
        exact ⟨log, keep _ rfl rfl (by simpa [handed, hp] using h3)⟩

theorem app_run {old : Option Str} {cs : List (Bool × Str)} : ∀ (as : List (Nat × Act)) {w : World} {log : List (Nat × Str)}, AppInv old cs w log →
    ∃ log', AppInv old cs (run w as) log'
  | [], w, log, h => ⟨log, h⟩
  | a :: as, w, log, h => by
    obtain ⟨log', h'⟩ := app_step h a.1 a.2
    exact app_run as h'

theorem app_begin (old : Option Str) (ts : List Str) : AppInv old (ts.map fun t => (true, t)) (begin_ old (ts.map fun t => (true, t))) [] := by
  refine ⟨Or.inl ⟨rfl, rfl⟩, by simp [begin_], ?_, by simp⟩
  intro i c hc
  simp only [begin_, List.map_map, List.getElem?_map, Option.map_eq_some_iff] at hc
  obtain ⟨t, ht, rfl⟩ := hc
  exact ⟨rfl, ⟨true, by simp [ht]⟩, by simp [handed, piecesOf]⟩

/-- **C146, appending.** Any number of programs append to the same file, in any order, and any of them may be ended at any point: what was in the file stays, nothing that was written is lost,
the pieces of each call are in the file in order and together are the beginning of its text, and all of it once the call has returned. -/
theorem C146_append (old : Option Str) (ts : List Str) (as : List (Nat × Act)) :
    let w := run (begin_ old (ts.map fun t => (true, t))) as
    ∃ log : List (Nat × Str), (w.file = old ∧ log = [] ∨ w.file = some (old.getD [] ++ allPieces log)) ∧ (∀ e ∈ log, e.1 < ts.length) ∧
      ∀ i t, ts[i]? = some t → piecesOf log i <+: t ∧ (Returned w i → piecesOf log i = t) := by
  intro w
  obtain ⟨log, h⟩ := app_run as (app_begin old ts)
  refine ⟨log, h.file, by simpa using h.ids, fun i t ht => ?_⟩
  have hi : i < w.calls.length := by
    rw [h.len, List.length_map]
    exact (List.getElem?_eq_some_iff.1 ht).1
  obtain ⟨c, hc⟩ : ∃ c, w.calls[i]? = some c := ⟨_, List.getElem?_eq_getElem hi⟩
  obtain ⟨h1, ⟨b, h2⟩, h3⟩ := h.calls i c hc
  have et : c.text = t := by
    rw [List.getElem?_map, ht] at h2
    simp at h2
    exact h2.2.symm
  subst et
  constructor
  · unfold handed at h3
    split at h3
    · rw [h3]; exact List.nil_prefix
    · exact ⟨_, h3⟩
    · rw [h3]
    · exact h3
  · rintro ⟨c', k1, k2⟩
    rw [hc] at k1
    cases k1
    simpa [handed, k2] using h3

/-! ### Saving -/

theorem writeAt_end (s c : Str) : writeAt s s.length c = s ++ c := by
  unfold writeAt
  simp

theorem piece_facts (s : Str) (pos n : Nat) (h : pos ≤ s.length) :
    s.take pos ++ (s.drop pos).take n = s.take (pos + ((s.drop pos).take n).length) ∧ pos + ((s.drop pos).take n).length ≤ s.length ∧
      (s.drop pos).drop n = s.drop (pos + ((s.drop pos).take n).length) := by
  rw [List.length_take, List.length_drop]
  refine ⟨?_, by omega, ?_⟩
  · rw [List.take_add]
    congr 1
    rw [List.take_eq_take_iff, List.length_drop]
    omega
  · rw [List.drop_drop]
    by_cases hn : n ≤ s.length - pos
    · rw [Nat.min_eq_left hn]
    · rw [Nat.min_eq_right (by omega), List.drop_of_length_le (by omega), List.drop_of_length_le (by omega)]

/-- What one call of `save_string` leaves. -/
def OneInv (old : Option Str) (s : Str) (w : World) : Prop :=
  ∃ c, w.calls = [c] ∧ c.app = false ∧ c.text = s ∧ (match c.phase with
    | .start => w.file = old
    | .writing pos rest => w.file = some (s.take pos) ∧ pos ≤ s.length ∧ rest = s.drop pos
    | .done => w.file = some s
    | .dead => w.file = old ∨ ∃ n, w.file = some (s.take n))

theorem one_step {old : Option Str} {s : Str} {w : World} (h : OneInv old s w) (i : Nat) (a : Act) : OneInv old s (step w i a) := by
  obtain ⟨c, hc, h1, h2, h3⟩ := h
  unfold step
  cases i with
  | succ i => rw [hc]; exact ⟨c, hc, h1, h2, h3⟩
  | zero =>
    have hg : w.calls[0]? = some c := by rw [hc]; rfl
    rw [hg]
    simp only
    have same : OneInv old s ⟨w.file, w.calls.set 0 c⟩ := ⟨c, by rw [hc]; rfl, h1, h2, h3⟩
    have hn : ¬ c.app = true := by simp [h1]
    cases a with
    | openFile =>
      unfold callStep
      cases hp : c.phase with
      | start => exact ⟨{ c with phase := .writing 0 c.text }, by rw [hc]; rfl, h1, h2, by simp [h1, h2]⟩
      | writing pos rest => exact same
      | done => exact same
      | dead => exact same
    | write n =>
      unfold callStep
      cases hp : c.phase with
      | start => exact same
      | writing pos rest =>
        rw [hp] at h3
        obtain ⟨k1, k2, k3⟩ := h3
        refine ⟨{ c with phase := .writing (pos + (rest.take n).length) (rest.drop n) }, by rw [hc]; rfl, h1, h2, ?_⟩
        simp only [if_neg hn, k1, Option.getD_some, k3]
        have hl : (s.take pos).length = pos := by simp [k2]
        have e := writeAt_end (s.take pos) ((s.drop pos).take n)
        rw [hl] at e
        rw [e]
        obtain ⟨m1, m2, m3⟩ := piece_facts s pos n k2
        exact ⟨by rw [m1], m2, m3⟩
      | done => exact same
      | dead => exact same
    | close =>
      unfold callStep
      cases hp : c.phase with
      | start => exact same
      | writing pos rest =>
        rw [hp] at h3
        obtain ⟨k1, k2, k3⟩ := h3
        cases rest with
        | nil =>
          refine ⟨{ c with phase := .done }, by rw [hc]; rfl, h1, h2, ?_⟩
          have : s.length ≤ pos := by simpa using k3.symm
          simp only [k1]
          rw [List.take_of_length_le this]
        | cons x xs => exact same
      | done => exact same
      | dead => exact same
    | die =>
      unfold callStep
      cases hp : c.phase with
      | start =>
        rw [hp] at h3
        exact ⟨{ c with phase := .dead }, by rw [hc]; rfl, h1, h2, Or.inl h3⟩
      | writing pos rest =>
        rw [hp] at h3
        exact ⟨{ c with phase := .dead }, by rw [hc]; rfl, h1, h2, Or.inr ⟨pos, h3.1⟩⟩
      | done => exact same
      | dead =>
        rw [hp] at h3
        exact ⟨{ c with phase := .dead }, by rw [hc]; rfl, h1, h2, h3⟩

theorem one_run {old : Option Str} {s : Str} : ∀ (as : List (Nat × Act)) {w : World}, OneInv old s w → OneInv old s (run w as)
  | [], _, h => h
  | a :: as, _, h => one_run as (one_step h a.1 a.2)

/-- **C146, saving.** A program that saves a text, and that may end at any point, leaves the file as it was or with a beginning of the text, and with the whole text
once the call has returned. -/
theorem C146_save (old : Option Str) (s : Str) (as : List (Nat × Act)) :
    let w := run (begin_ old [(false, s)]) as
    (w.file = old ∨ ∃ n, w.file = some (s.take n)) ∧ (Returned w 0 → w.file = some s) := by
  intro w
  obtain ⟨c, hc, h1, h2, h3⟩ := one_run (old := old) (s := s) as (w := begin_ old [(false, s)]) ⟨_, rfl, rfl, rfl, rfl⟩
  have hc' : w.calls = [c] := hc
  constructor
  · cases hp : c.phase with
    | start => rw [hp] at h3; exact Or.inl h3
    | writing pos rest => rw [hp] at h3; exact Or.inr ⟨pos, h3.1⟩
    | done => rw [hp] at h3; exact Or.inr ⟨s.length, by rw [List.take_length]; exact h3⟩
    | dead => rw [hp] at h3; exact h3
  · rintro ⟨c', k1, k2⟩
    rw [hc'] at k1
    cases k1
    rw [k2] at h3
    exact h3

/-- **C146, violated.** Saving is not all or nothing: a program that ends at the wrong moment loses the text that was in the file, and any beginning of the new text can be what is left. -/
theorem C146_crash_violated (old : Option Str) (s : Str) (n : Nat) (hn : n < s.length) :
    ∃ as, (run (begin_ old [(false, s)]) as).file = some (s.take n) ∧ some (s.take n) ≠ some s := by
  refine ⟨[(0, .openFile), (0, .write n), (0, .die)], ?_, ?_⟩
  · show some (writeAt [] 0 (s.take n)) = _
    simp [writeAt]
  · intro e
    have := congrArg List.length (Option.some.inj e)
    rw [List.length_take] at this
    omega

/-- **C146, violated.** Two programs save different texts at the same time: both calls return without an error, and the file holds neither of the texts. -/
theorem C146_two_saves_violated (old : Option Str) (a b : Str) (hl : b.length < a.length) (hne : a.take b.length ≠ b) :
    ∃ as, Returned (run (begin_ old [(false, a), (false, b)]) as) 0 ∧ Returned (run (begin_ old [(false, a), (false, b)]) as) 1 ∧
      ∃ t, (run (begin_ old [(false, a), (false, b)]) as).file = some t ∧ t ≠ a ∧ t ≠ b := by
  refine ⟨[(0, .openFile), (1, .openFile), (0, .write a.length), (0, .close), (1, .write b.length), (1, .close)], ?_⟩
  have e : run (begin_ old [(false, a), (false, b)]) [(0, .openFile), (1, .openFile), (0, .write a.length), (0, .close), (1, .write b.length), (1, .close)] =
      ⟨some (b ++ a.drop b.length), [⟨false, a, .done⟩, ⟨false, b, .done⟩]⟩ := by
    simp [run, step, begin_, callStep, writeAt]
  rw [e]
  refine ⟨⟨_, rfl, rfl⟩, ⟨_, rfl, rfl⟩, _, rfl, ?_, ?_⟩
  · intro h
    apply hne
    rw [← h]
    simp
  · intro h
    have := congrArg List.length h
    rw [List.length_append, List.length_drop] at this
    omega

/-! ### The same text -/

theorem writeAt_get (t c : Str) (q i : Nat) :
    (writeAt t q c)[i]? = if i < q then (if i < t.length then t[i]? else some '\x00') else if i < q + c.length then c[i - q]? else t[i]? := by
  unfold writeAt
  have hl : ((t ++ List.replicate (q - t.length) '\x00').take q).length = q := by
    rw [List.length_take, List.length_append, List.length_replicate]
    omega
  rw [List.append_assoc]
  by_cases h : i < q
  · rw [if_pos h, List.getElem?_append_left (by omega), List.getElem?_take_of_lt h]
    by_cases h2 : i < t.length
    · rw [if_pos h2, List.getElem?_append_left h2]
    · rw [if_neg h2, List.getElem?_append_right (by omega), List.getElem?_replicate, if_pos (by omega)]
  · rw [if_neg h, List.getElem?_append_right (by omega), hl]
    by_cases h2 : i < q + c.length
    · rw [if_pos h2, List.getElem?_append_left (by omega)]
    · rw [if_neg h2, List.getElem?_append_right (by omega), List.getElem?_drop]
      congr 1
      omega

theorem writeAt_length (t c : Str) (q : Nat) : (writeAt t q c).length = max t.length (q + c.length) ∨ c = [] := by
  by_cases hc : c = []
  · exact Or.inr hc
  · left
    unfold writeAt
    simp only [List.length_append, List.length_take, List.length_replicate, List.length_drop]
    have := List.length_pos_iff.2 hc
    omega

/-- The first `p` characters are those of `s`, and there are no more than in `s`. -/
def Good (s t : Str) (p : Nat) : Prop := t.length ≤ s.length ∧ p ≤ t.length ∧ ∀ i, i < p → t[i]? = s[i]?

theorem good_write {s t : Str} {p q n : Nat} (h : Good s t p) (hq : q ≤ s.length) :
    Good s (writeAt t q ((s.drop q).take n)) p ∧ (q = p → Good s (writeAt t q ((s.drop q).take n)) (p + ((s.drop q).take n).length)) := by
  obtain ⟨h1, h2, h3⟩ := h
  have hm : ((s.drop q).take n).length ≤ s.length - q := by
    rw [List.length_take, List.length_drop]
    omega
  have hlen : (writeAt t q ((s.drop q).take n)).length ≤ s.length ∧ t.length ≤ (writeAt t q ((s.drop q).take n)).length ∧
      q + ((s.drop q).take n).length ≤ (writeAt t q ((s.drop q).take n)).length := by
    have e : (writeAt t q ((s.drop q).take n)).length = q + ((s.drop q).take n).length + (t.length - (q + ((s.drop q).take n).length)) := by
      unfold writeAt
      simp only [List.length_append, List.length_take, List.length_replicate, List.length_drop]
      omega
    omega
  have hc : ∀ i, q ≤ i → i < q + ((s.drop q).take n).length → ((s.drop q).take n)[i - q]? = s[i]? := by
    intro i h4 h5
    have : i - q < n := by
      have := List.length_take_le n (s.drop q)
      omega
    rw [List.getElem?_take_of_lt this, List.getElem?_drop]
    congr 1
    omega
  have key : ∀ i, i < p → (writeAt t q ((s.drop q).take n))[i]? = s[i]? := by
    intro i hi
    rw [writeAt_get]
    by_cases h4 : i < q
    · rw [if_pos h4, if_pos (by omega)]
      exact h3 i hi
    · rw [if_neg h4]
      by_cases h5 : i < q + ((s.drop q).take n).length
      · rw [if_pos h5]
        exact hc i (by omega) h5
      · rw [if_neg h5]
        exact h3 i hi
  refine ⟨⟨hlen.1, by omega, key⟩, fun e => ⟨hlen.1, by omega, ?_⟩⟩
  intro i hi
  by_cases h4 : i < p
  · exact key i h4
  · rw [writeAt_get, if_neg (by omega), if_pos (by omega)]
    exact hc i (by omega) (by omega)

/-- How far a call got. -/
def got (s : Str) (c : Call) : Nat := match c.phase with
  | .writing pos _ => pos
  | .done => s.length
  | _ => 0

structure SameInv (s : Str) (w : World) : Prop where
  calls : ∀ (i : Nat) (c : Call), w.calls[i]? = some c → c.app = false ∧ c.text = s ∧ ∀ pos rest, c.phase = .writing pos rest → pos ≤ s.length ∧ rest = s.drop pos
  file : (∀ (i : Nat) (c : Call), w.calls[i]? = some c → c.phase = .start ∨ c.phase = .dead) ∨ ∃ (j : Nat) (c : Call) (t : Str), w.calls[j]? = some c ∧ w.file = some t ∧ Good s t (got s c)

theorem same_step {s : Str} {w : World} (h : SameInv s w) (i : Nat) (a : Act) : SameInv s (step w i a) := by
  unfold step
  cases hc : w.calls[i]? with
  | none => exact h
  | some c =>
    obtain ⟨h1, h2, h3⟩ := h.calls i c hc
    have hn : ¬ c.app = true := by simp [h1]
    have hi : i < w.calls.length := (List.getElem?_eq_some_iff.1 hc).1
    have self : ∀ c', (w.calls.set i c')[i]? = some c' := fun c' => by rw [List.getElem?_set]; simp [hi]
    -- a step that leaves the file, after which the call got no further than before
    have keep : ∀ c' : Call, c'.app = c.app → c'.text = c.text → (∀ pos rest, c'.phase = .writing pos rest → pos ≤ s.length ∧ rest = s.drop pos) →
        (c.phase = .start ∨ c.phase = .dead → c'.phase = .start ∨ c'.phase = .dead) → got s c' ≤ got s c → SameInv s ⟨w.file, w.calls.set i c'⟩ := by
      intro c' e1 e2 e3 e4 e5
      refine ⟨fun j c'' hj => ?_, ?_⟩
      · rcases set_get _ _ _ _ _ hj with ⟨rfl, rfl⟩ | ⟨_, hj⟩
        · exact ⟨e1.trans h1, e2.trans h2, e3⟩
        · exact h.calls j c'' hj
      · rcases h.file with k | ⟨j, d, t, k1, k2, k3⟩
        · left
          intro j c'' hj
          rcases set_get _ _ _ _ _ hj with ⟨rfl, rfl⟩ | ⟨_, hj⟩
          · exact e4 (k i c hc)
          · exact k j c'' hj
        · right
          by_cases e : i = j
          · subst e
            rw [hc] at k1
            cases k1
            exact ⟨i, c', t, self c', k2, k3.1, e5.trans k3.2.1, fun x hx => k3.2.2 x (by omega)⟩
          · exact ⟨j, d, t, by rw [List.getElem?_set, if_neg e]; exact k1, k2, k3⟩
    have same : SameInv s ⟨w.file, w.calls.set i c⟩ := keep c rfl rfl h3 id (le_refl _)
    simp only
    cases a with
    | openFile =>
      unfold callStep
      cases hp : c.phase with
      | start =>
        simp only [if_neg hn]
        refine ⟨fun j c'' hj => ?_, Or.inr ⟨i, { c with phase := .writing 0 c.text }, [], self _, rfl, ?_⟩⟩
        · rcases set_get _ _ _ _ _ hj with ⟨rfl, rfl⟩ | ⟨_, hj⟩
          · refine ⟨h1, h2, ?_⟩
            rintro pos rest ⟨⟩
            exact ⟨by omega, by simp [h2]⟩
          · exact h.calls j c'' hj
        · exact ⟨by simp, by simp [got], by intro x hx; simp [got] at hx⟩
      | writing pos rest => exact same
      | done => exact same
      | dead => exact same
    | write n =>
      unfold callStep
      cases hp : c.phase with
      | start => exact same
      | writing pos rest =>
        simp only [if_neg hn]
        obtain ⟨k1, k2⟩ := h3 pos rest hp
        subst k2
        rcases h.file with k | ⟨j, d, t, f1, f2, f3⟩
        · have := k i c hc
          rw [hp] at this
          simp at this
        · rw [f2]
          simp only [Option.getD_some]
          obtain ⟨g1, g2⟩ := good_write (n := n) f3 k1
          obtain ⟨_, m2, m3⟩ := piece_facts s pos n k1
          refine ⟨fun j c'' hj => ?_, Or.inr ?_⟩
          · rcases set_get _ _ _ _ _ hj with ⟨rfl, rfl⟩ | ⟨_, hj⟩
            · refine ⟨h1, h2, ?_⟩
              rintro pos' rest' ⟨⟩
              exact ⟨m2, m3⟩
            · exact h.calls j c'' hj
          · by_cases e : i = j
            · subst e
              rw [hc] at f1
              cases f1
              have eg : got s c = pos := by unfold got; rw [hp]
              rw [eg] at g2
              exact ⟨i, _, _, self _, rfl, g2 rfl⟩
            · exact ⟨j, d, _, by rw [List.getElem?_set, if_neg e]; exact f1, rfl, g1⟩
      | done => exact same
      | dead => exact same
    | close =>
      unfold callStep
      cases hp : c.phase with
      | start => exact same
      | writing pos rest =>
        cases rest with
        | nil =>
          obtain ⟨k1, k2⟩ := h3 pos [] hp
          have : s.length ≤ pos := by simpa using k2.symm
          exact keep { c with phase := .done } rfl rfl (by simp) (by simp [hp]) (by simp [got, hp, this])
        | cons x xs => exact same
      | done => exact same
      | dead => exact same
    | die =>
      unfold callStep
      cases hp : c.phase with
      | start => exact keep { c with phase := .dead } rfl rfl (by simp) (by simp) (by simp [got])
      | writing pos rest => exact keep { c with phase := .dead } rfl rfl (by simp) (by simp) (by simp [got])
      | done => exact same
      | dead => exact keep { c with phase := .dead } rfl rfl (by simp) (by simp) (by simp [got])

theorem same_run {s : Str} : ∀ (as : List (Nat × Act)) {w : World}, SameInv s w → SameInv s (run w as)
  | [], _, h => h
  | a :: as, _, h => same_run as (same_step h a.1 a.2)

theorem step_length (w : World) (i : Nat) (a : Act) : (step w i a).calls.length = w.calls.length := by
  unfold step
  cases w.calls[i]? with
  | none => rfl
  | some c => simp

theorem run_length : ∀ (as : List (Nat × Act)) (w : World), (run w as).calls.length = w.calls.length
  | [], _ => rfl
  | a :: as, w => (run_length as _).trans (step_length w a.1 a.2)

/-- **C146, saving the same text.** Any number of programs save the same text to the same file, in any order of their steps: when all calls have returned, the file holds that text. -/
theorem C146_same_text (old : Option Str) (s : Str) (k : Nat) (hk : 0 < k) (as : List (Nat × Act))
    (hr : ∀ i < k, Returned (run (begin_ old (List.replicate k (false, s))) as) i) :
    (run (begin_ old (List.replicate k (false, s))) as).file = some s := by
  have h0 : SameInv s (begin_ old (List.replicate k (false, s))) := by
    have hall : ∀ (i : Nat) (c : Call), (begin_ old (List.replicate k (false, s))).calls[i]? = some c → c = ⟨false, s, .start⟩ := by
      intro i c hc
      simp only [begin_, List.map_replicate] at hc
      exact List.eq_of_mem_replicate (List.mem_of_getElem? hc)
    refine ⟨fun i c hc => ?_, Or.inl fun i c hc => ?_⟩
    · rw [hall i c hc]
      exact ⟨rfl, rfl, by simp⟩
    · rw [hall i c hc]
      exact Or.inl rfl
  have h := same_run as h0
  have hl : (run (begin_ old (List.replicate k (false, s))) as).calls.length = k := by
    rw [run_length]
    simp [begin_]
  rcases h.file with e | ⟨j, c, t, f1, f2, f3⟩
  · obtain ⟨c, k1, k2⟩ := hr 0 hk
    have := e 0 c k1
    rw [k2] at this
    simp at this
  · have hj : j < k := by
      rw [← hl]
      exact (List.getElem?_eq_some_iff.1 f1).1
    obtain ⟨c', k1, k2⟩ := hr j hj
    rw [f1] at k1
    cases k1
    have eg : got s c = s.length := by unfold got; rw [k2]
    rw [eg] at f3
    obtain ⟨g1, g2, g3⟩ := f3
    rw [f2]
    congr 1
    apply List.ext_getElem?
    intro i
    by_cases hi : i < s.length
    · exact g3 i hi
    · rw [List.getElem?_eq_none (by omega), List.getElem?_eq_none (by omega)]

/-! ### A history that ends inside a call -/

/-- The disk when the program ends inside an operation; `q` and `n` say how far it came. -/
def cutOff (d : Disk) (ev : Event) (q : Path) (n : Option Nat) : Disk := match ev.op with
  | .save p s => cutPut d ev.deny false p s q n
  | .append p s => cutPut d ev.deny true p s q n
  | .remove _ => if n.isNone then d else (exec d ev).1
  | .copy src dst ow => cutCopy d ev.deny src dst ow n

namespace Spec

/-- What can be in the file of an operation that was not completed, if it held `old`. -/
def Left (m : Place → Option Str) : Op → Place → Option Str → Prop
  | .save p s, q, r => q = place p ∧ ∃ n, r = some (s.take n)
  | .append p s, q, r => q = place p ∧ ∃ n, r = some ((m q).getD [] ++ s.take n)
  | .remove p, q, r => q = place p ∧ r = none
  | .copy src dst _, q, r => q = place dst ∧ ∃ s n, m (place src) = some s ∧ r = some (s.take n)

end Spec

theorem put_left (d : Disk) (deny app : Bool) (p : Path) (s : Str) (n : Nat) (q : Place) :
    files (putString d deny n app none p s).2.2 q = files d q ∨
      q = place p ∧ files (putString d deny n app none p s).2.2 q = some ((if app then (files d q).getD [] else []) ++ s.take n) := by
  cases ho : openOut { d with fs := (createDirectories d.fs (Path.parentPath p)).1 } deny app p with
  | none =>
    left
    rw [putString_fail ho]
    exact congrFun (files_created d _) q
  | some d2 =>
    obtain ⟨d', h1, h2⟩ := putString_ok (room := n) (ec := none) (s := s) ho
    rw [h1]
    simp only
    rw [h2]
    unfold setFile
    by_cases e : q = place p
    · right
      subst e
      exact ⟨rfl, if_pos rfl⟩
    · left
      rw [if_neg e]

theorem copy_left (d : Disk) (deny : Bool) (src dst : Path) (ow : Bool) (n : Nat) (q : Place) :
    files (stdCopy d deny n src dst ow).1 q = files d q ∨
      q = place dst ∧ ∃ s, files d (place src) = some s ∧ files (stdCopy d deny n src dst ow).1 q = some (s.take n) := by
  unfold stdCopy
  split
  · exact Or.inl rfl
  split
  · next hk =>
    split
    · exact Or.inl rfl
    · cases ho : openOut d false false dst with
      | none => exact Or.inl rfl
      | some d2 =>
        obtain ⟨h1, h2, h3, h4, h5⟩ := openOut_spec ho
        have hs : files d (place src) = some (d.text (place src)) := by
          unfold Fs.stat at hk
          split at hk
          · cases hk
          · unfold files; rw [if_pos hk]
        simp only
        rw [files_setText _ _ _ h3, h5]
        unfold setFile
        by_cases e : q = place dst
        · right
          subst e
          exact ⟨rfl, _, hs, by simp⟩
        · left
          rw [if_neg e, if_neg e]
  · exact Or.inl rfl

/-- **C146, a history that ends inside a call.** After any sequence of saving, appending, removing and copying that ends inside a call, at any point of it, every file is as the calls before left it, except
the file of that call, which may hold a beginning of what the call was writing; an appended file still begins with what it held. -/
theorem C146_history (d : Disk) (evs : List Event) (ev : Event) (p : Path) (n : Option Nat) (q : Place) :
    let m := after (files d) (execAll d evs).2
    files (cutOff (execAll d evs).1 ev p n) q = m q ∨ Left m ev.op q (files (cutOff (execAll d evs).1 ev p n) q) := by
  intro m
  have hm : files (execAll d evs).1 = m := C107_history evs d
  generalize (execAll d evs).1 = d1 at *
  rw [← hm]
  cases ev with
  | mk op deny isEmpty throws code =>
  cases op with
  | save p' s =>
    cases n with
    | none => exact Or.inl (congrFun (files_created d1 p) q)
    | some n =>
      rcases put_left d1 deny false p' s n q with h | ⟨h1, h2⟩
      · exact Or.inl h
      · exact Or.inr ⟨h1, n, h2.trans (by simp)⟩
  | append p' s =>
    cases n with
    | none => exact Or.inl (congrFun (files_created d1 p) q)
    | some n =>
      rcases put_left d1 deny true p' s n q with h | ⟨h1, h2⟩
      · exact Or.inl h
      · exact Or.inr ⟨h1, n, h2.trans (by simp)⟩
  | remove p' =>
    cases n with
    | none => exact Or.inl rfl
    | some n =>
      have h := exec_files d1 ⟨.remove p', deny, isEmpty, throws, code⟩
      show files (exec d1 _).1 q = _ ∨ Left _ _ _ (files (exec d1 _).1 q)
      rw [h]
      split
      · by_cases e : q = place p'
        · right
          exact ⟨e, by simp [effect, setFile, e]⟩
        · left
          simp [effect, setFile, e]
      · exact Or.inl rfl
  | copy src dst ow =>
    cases n with
    | none => exact Or.inl rfl
    | some n =>
      rcases copy_left d1 deny src dst ow n q with h | ⟨h1, s, h2, h3⟩
      · exact Or.inl h
      · exact Or.inr ⟨h1, s, n, h2, h3⟩

/-! ### Cases -/

/-- Two programs append at the same time, one of them in two pieces. -/
example : (run (begin_ (some "a".toList) [(true, "xyz".toList), (true, "12".toList)])
    [(0, .openFile), (1, .openFile), (0, .write 2), (1, .write 2), (1, .close), (0, .write 5), (0, .die)]).file = some "axy12z".toList := by decide

/-- Three programs save the same text. -/
example : Returned (run (begin_ none (List.replicate 2 (false, "abc".toList)))
    [(0, .openFile), (0, .write 2), (1, .openFile), (0, .write 1), (0, .close), (1, .write 3), (1, .close)]) 0 := ⟨_, rfl, rfl⟩

/-- In between, a gap. -/
example : (run (begin_ none (List.replicate 2 (false, "abc".toList))) [(0, .openFile), (0, .write 2), (1, .openFile), (0, .write 1)]).file =
    some ['\x00', '\x00', 'c'] := by decide

end Xo.Steps
