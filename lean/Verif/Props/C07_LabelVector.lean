import Verif.Model.Indexed
import Mathlib.Data.List.Basic

/-!
C07: `label_vector` lookup. Two defects: the constructors that take labels never fill the index, and `set` on a
slot that already has a label leaves the old label in the index.
-/
namespace Xo

namespace Spec
/-- Operations on labelled slots. -/
inductive LabelOp (L : Type) where
  | add (l : L)
  | findOrAdd (l : L)
  | set (i : Nat) (l : L)
  | resize (n : Nat)
  | clear
  deriving Repr

/-- Specification: a sequence of slots, each blank or labelled. Adding a label that is already there is an error;
so is labelling a slot that does not exist, and shrinking. -/
def labelStep {L : Type} [DecidableEq L] (s : List (Option L)) : LabelOp L → Option (List (Option L))
  | .add l => if some l ∈ s then none else some (s ++ [some l])
  | .findOrAdd l => if some l ∈ s then some s else some (s ++ [some l])
  | .set i l => if i < s.length ∧ some l ∉ s then some (s.set i (some l)) else none
  | .resize n => if n < s.length then none else some (s ++ List.replicate (n - s.length) none)
  | .clear => some []

/-- The operation does not relabel a slot that already has a label. -/
def fresh {L : Type} (s : List (Option L)) : LabelOp L → Prop
  | .set i _ => ∀ x, s[i]? = some x → x = none
  | _ => True

/-- A history in which every call succeeds and none relabels a slot; ends in `t`. -/
inductive LabelRun {L : Type} [DecidableEq L] : List (Option L) → List (LabelOp L) → List (Option L) → Prop where
  | nil (s) : LabelRun s [] s
  | cons {s op s1 ops t} : fresh s op → labelStep s op = some s1 → LabelRun s1 ops t → LabelRun s (op :: ops) t
end Spec

open Spec
variable {L : Type} [DecidableEq L]

namespace LabelVector

/-- One API call on the model. -/
def step (dflt : L) (s : LabelVector L) : LabelOp L → Res (LabelVector L)
  | .add l => (s.add l).bind fun r => .ok r.2
  | .findOrAdd l => .ok (s.findOrAdd l).2
  | .set i l => s.set i l
  | .resize n => s.resize dflt n
  | .clear => .ok s.clear

def run (dflt : L) (s : LabelVector L) : List (LabelOp L) → Res (LabelVector L)
  | [] => .ok s
  | op :: ops => (s.step dflt op).bind fun s1 => run dflt s1 ops

/-- The vector holds these slots, and lookup is exact. -/
def Rel (dflt : L) (s : LabelVector L) (t : List (Option L)) : Prop :=
  s.labels = t.map (fun o => o.getD dflt) ∧ ∀ l i, s.idx l = some i ↔ t[i]? = some (some l)

theorem find_none_iff {dflt : L} {s : LabelVector L} {t : List (Option L)} (h : Rel dflt s t) (l : L) :
    s.idx l = none ↔ some l ∉ t := by
  constructor
  · intro hn hm
    obtain ⟨i, hi⟩ := List.getElem?_of_mem hm
    have := (h.2 l i).2 hi
    rw [hn] at this; cases this
  · intro hm
    cases hs : s.idx l with
    | none => rfl
    | some i => exact absurd (List.mem_of_getElem? ((h.2 l i).1 hs)) hm

theorem rel_append {dflt : L} {s : LabelVector L} {t : List (Option L)} (h : Rel dflt s t) (l : L)
    (hm : some l ∉ t) :
    Rel dflt ⟨s.labels ++ [l], put s.idx l s.labels.length⟩ (t ++ [some l]) := by
  have hlen : s.labels.length = t.length := by rw [h.1]; simp
  refine ⟨by simp [h.1], ?_⟩
  intro l' i
  unfold put
  simp only
  by_cases hl : l' = l
  · subst hl
    simp only [if_true, Option.some.injEq, hlen]
    constructor
    · rintro rfl; simp
    · intro hi
      by_contra hne
      rcases Nat.lt_or_ge i t.length with hlt | hge
      · rw [List.getElem?_append_left hlt] at hi
        exact hm (List.mem_of_getElem? hi)
      · rw [List.getElem?_eq_none (by simp; omega)] at hi; cases hi
  · rw [if_neg hl, h.2]
    constructor
    · intro hi
      have : i < t.length := by
        by_contra hc; rw [List.getElem?_eq_none (by omega)] at hi; cases hi
      rw [List.getElem?_append_left this]; exact hi
    · intro hi
      rcases Nat.lt_trichotomy i t.length with hlt | rfl | hgt
      · rwa [List.getElem?_append_left hlt] at hi
      · simp at hi; exact absurd hi.symm hl
      · rw [List.getElem?_eq_none (by simp; omega)] at hi; cases hi

end LabelVector
open LabelVector

/-- Every call that does not relabel a slot behaves as specified: it fails exactly if the specification says so
and otherwise lookup stays exact. -/
theorem C07_step_partial (dflt : L) (s : LabelVector L) (t : List (Option L)) (h : Rel dflt s t)
    (op : LabelOp L) (hf : fresh t op) :
    match labelStep t op with
    | some t' => ∃ s', s.step dflt op = .ok s' ∧ Rel dflt s' t'
    | none => s.step dflt op = .err := by
  have hlen : s.labels.length = t.length := by rw [h.1]; simp
  cases op with
  | add l =>
    by_cases hm : some l ∈ t
    · have : s.idx l ≠ none := fun hn => (find_none_iff h l).1 hn hm
      obtain ⟨i, hi⟩ := Option.ne_none_iff_exists'.1 this
      simp [labelStep, hm, LabelVector.step, LabelVector.add, LabelVector.find, hi, Res.bind]
    · have hn := (find_none_iff h l).2 hm
      simp only [labelStep, hm, if_false, LabelVector.step, LabelVector.add, LabelVector.find, hn, Res.bind]
      exact ⟨_, rfl, rel_append h l hm⟩
  | findOrAdd l =>
    by_cases hm : some l ∈ t
    · have : s.idx l ≠ none := fun hn => (find_none_iff h l).1 hn hm
      obtain ⟨i, hi⟩ := Option.ne_none_iff_exists'.1 this
      simp only [labelStep, hm, if_true, LabelVector.step, LabelVector.findOrAdd, LabelVector.find, hi]
      exact ⟨s, rfl, h⟩
    · have hn := (find_none_iff h l).2 hm
      simp only [labelStep, hm, if_false, LabelVector.step, LabelVector.findOrAdd, LabelVector.find, hn]
      exact ⟨_, rfl, rel_append h l hm⟩
  | set i l =>
    by_cases hc : i < t.length ∧ some l ∉ t
    · have hn := (find_none_iff h l).2 hc.2
      have hc' : i < s.labels.length ∧ s.find l = none := ⟨by rw [hlen]; exact hc.1, hn⟩
      simp only [labelStep, hc, LabelVector.step, LabelVector.set, hc', and_self, if_true, not_false_eq_true]
      refine ⟨_, rfl, ?_, ?_⟩
      · simp [h.1, List.map_set]
      · have hblank : t[i]? = some none := by
          have := hf (t[i]'hc.1) (by simp)
          simp [hc.1, this]
        intro l' j
        unfold put
        simp only
        by_cases hl : l' = l
        · subst hl
          simp only [if_true, Option.some.injEq]
          constructor
          · rintro rfl; simp [hc.1]
          · intro hj
            by_contra hne
            rw [List.getElem?_set_ne hne] at hj
            exact hc.2 (List.mem_of_getElem? hj)
        · rw [if_neg hl, h.2]
          by_cases hij : i = j
          · subst hij; rw [hblank]; simp [hc.1, Ne.symm hl]
          · rw [List.getElem?_set_ne hij]
    · have hc' : ¬ (i < s.labels.length ∧ s.find l = none) := by
        rw [hlen]; intro hx; exact hc ⟨hx.1, (find_none_iff h l).1 hx.2⟩
      simp only [labelStep, if_neg hc, LabelVector.step, LabelVector.set, if_neg hc']
  | resize n =>
    by_cases hn : n < t.length
    · simp [labelStep, hn, LabelVector.step, LabelVector.resize, hlen]
    · simp only [labelStep, if_neg hn, LabelVector.step, LabelVector.resize, hlen]
      refine ⟨_, rfl, by simp [h.1], ?_⟩
      intro l i
      simp only
      rw [h.2]
      constructor
      · intro hi
        have : i < t.length := by
          by_contra hc; rw [List.getElem?_eq_none (by omega)] at hi; cases hi
        rw [List.getElem?_append_left this]; exact hi
      · intro hi
        rcases Nat.lt_or_ge i t.length with hlt | hge
        · rwa [List.getElem?_append_left hlt] at hi
        · rw [List.getElem?_append_right hge, List.getElem?_replicate] at hi
          split at hi <;> cases hi
  | clear =>
    simp only [labelStep, LabelVector.step, LabelVector.clear]
    exact ⟨_, rfl, rfl, by simp⟩

/-- **C07, without relabelling.** For a vector made with the size constructor and any history that succeeds in the
specification and never relabels an already labelled slot, all calls succeed, the slots are as specified, and a
label is found at index `i` exactly if it is stored there. Missing from the full property: constructors that take
labels, and `set` on a labelled slot; there the property is false (theorems below). -/
theorem C07_lookup_exact_partial (dflt : L) (n : Nat) (ops : List (LabelOp L)) (t : List (Option L))
    (h : LabelRun (List.replicate n none) ops t) :
    ∃ s, (LabelVector.ofSize dflt n).run dflt ops = .ok s ∧
      s.labels = t.map (fun o => o.getD dflt) ∧
      (∀ l i, s.find l = some i ↔ t[i]? = some (some l)) ∧
      (∀ l i, s.find l = some i → s.at' i = .ok l) := by
  have gen : ∀ (t0 : List (Option L)) ops t, LabelRun t0 ops t → ∀ s, Rel dflt s t0 →
      ∃ s', s.run dflt ops = .ok s' ∧ Rel dflt s' t := by
    intro t0 ops t h
    induction h with
    | nil t => intro s hs; exact ⟨s, rfl, hs⟩
    | cons hf hs _ ih =>
      intro s hr
      have := C07_step_partial dflt s _ hr _ hf
      rw [hs] at this
      obtain ⟨s1, e1, r1⟩ := this
      obtain ⟨s2, e2, r2⟩ := ih s1 r1
      exact ⟨s2, by simp [LabelVector.run, e1, Res.bind, e2], r2⟩
  obtain ⟨s, e, r⟩ := gen _ _ _ h (LabelVector.ofSize dflt n) ⟨by simp [LabelVector.ofSize], by
    intro l i; simp only [LabelVector.ofSize, List.getElem?_replicate]
    constructor
    · rintro ⟨⟩
    · intro h; split at h <;> cases h⟩
  refine ⟨s, e, r.1, r.2, ?_⟩
  intro l i hi
  have := (r.2 l i).1 hi
  simp only [LabelVector.at', r.1, List.getElem?_map, this]; rfl

/-- What the slots hold after a successful call: the label last stored in each (`none`: never labelled). -/
def LabelVector.stored (t : List (Option L)) (s s' : LabelVector L) : LabelOp L → List (Option L)
  | .add l => t ++ [some l]
  | .findOrAdd l => if s'.labels.length = s.labels.length then t else t ++ [some l]
  | .set i l => t.set i (some l)
  | .resize n => t ++ List.replicate (n - t.length) none
  | .clear => []

/-- Any history; failing calls are caught and skipped. Also tracks the labels stored in the slots. -/
def LabelVector.runAll (dflt : L) : LabelVector L → List (Option L) → List (LabelOp L) →
    LabelVector L × List (Option L)
  | s, t, [] => (s, t)
  | s, t, op :: ops => match s.step dflt op with
    | .ok s' => LabelVector.runAll dflt s' (LabelVector.stored t s s' op) ops
    | _ => LabelVector.runAll dflt s t ops

theorem C07_stored_step (dflt : L) (s : LabelVector L) (t : List (Option L))
    (hl : s.labels.length = t.length) (h : ∀ l i, t[i]? = some (some l) → s.idx l = some i)
    (hd : s.labels = t.map (fun o => o.getD dflt))
    (op : LabelOp L) (s' : LabelVector L) (hs : s.step dflt op = .ok s') :
    s'.labels.length = (stored t s s' op).length ∧
    (∀ l i, (stored t s s' op)[i]? = some (some l) → s'.idx l = some i) ∧
    s'.labels = (stored t s s' op).map (fun o => o.getD dflt) := by
  have happ : ∀ l, s.idx l = none → ∀ l' i, (t ++ [some l])[i]? = some (some l') →
      put s.idx l s.labels.length l' = some i := by
    intro l hf l' i hi
    unfold put
    rcases Nat.lt_or_ge i t.length with hlt | hge
    · rw [List.getElem?_append_left hlt] at hi
      have := h l' i hi
      split
      · next e => subst e; rw [hf] at this; cases this
      · exact this
    · rw [List.getElem?_append_right hge] at hi
      cases hx : i - t.length with
      | zero =>
        rw [hx] at hi; simp at hi
        rw [if_pos hi.symm]; congr 1; omega
      | succ m => rw [hx] at hi; simp at hi
  cases op with
  | add l =>
    cases hf : s.idx l with
    | some i => simp [LabelVector.step, LabelVector.add, LabelVector.find, hf, Res.bind] at hs
    | none =>
      simp [LabelVector.step, LabelVector.add, LabelVector.find, hf, Res.bind] at hs
      subst hs
      exact ⟨by simp [stored, hl], happ l hf, by simp [stored, hd]⟩
  | findOrAdd l =>
    cases hf : s.idx l with
    | some i =>
      simp [LabelVector.step, LabelVector.findOrAdd, LabelVector.find, hf] at hs
      subst hs
      simp only [stored, if_true]
      exact ⟨hl, h, hd⟩
    | none =>
      simp [LabelVector.step, LabelVector.findOrAdd, LabelVector.find, hf] at hs
      subst hs
      have : ¬ (s.labels ++ [l]).length = s.labels.length := by simp
      simp only [stored, this, if_false]
      exact ⟨by simp [hl], happ l hf, by simp [hd]⟩
  | set i l =>
    simp only [LabelVector.step, LabelVector.set] at hs
    split at hs
    · next hc =>
      simp only [Res.ok.injEq] at hs
      subst hs
      refine ⟨by simp [stored, hl], ?_, by simp [stored, hd, List.map_set]⟩
      intro l' j hj
      unfold put
      simp only [stored] at hj ⊢
      by_cases hij : i = j
      · subst hij
        have hlt : i < t.length := by rw [← hl]; exact hc.1
        simp [hlt] at hj
        simp [hj]
      · rw [List.getElem?_set_ne hij] at hj
        have := h l' j hj
        split
        · next e => subst e; rw [show s.idx l' = none from hc.2] at this; cases this
        · exact this
    · cases hs
  | resize n =>
    simp only [LabelVector.step, LabelVector.resize] at hs
    split at hs
    · cases hs
    · simp only [Res.ok.injEq] at hs
      subst hs
      refine ⟨by simp [stored, hl], ?_, by simp [stored, hd]⟩
      intro l' i hi
      simp only [stored] at hi
      rcases Nat.lt_or_ge i t.length with hlt | hge
      · rw [List.getElem?_append_left hlt] at hi; exact h l' i hi
      · rw [List.getElem?_append_right hge, List.getElem?_replicate] at hi
        split at hi <;> cases hi
  | clear =>
    simp only [LabelVector.step, LabelVector.clear, Res.ok.injEq] at hs
    subst hs
    exact ⟨rfl, by simp [stored], rfl⟩

/-- **C07, all histories, one direction.** Whatever the history from the size constructor (also with relabelling
and with failing calls in between), a label that is stored in a slot is found, at exactly that slot. The other
direction is false (`C07_relabel_violated`). -/
theorem C07_stored_labels_found_partial (dflt : L) (n : Nat) (ops : List (LabelOp L)) :
    let r := LabelVector.runAll dflt (LabelVector.ofSize dflt n) (List.replicate n none) ops
    r.1.labels = r.2.map (fun o => o.getD dflt) ∧
    ∀ l i, r.2[i]? = some (some l) → r.1.find l = some i := by
  have gen : ∀ ops (s : LabelVector L) t, s.labels.length = t.length →
      (∀ l i, t[i]? = some (some l) → s.idx l = some i) → s.labels = t.map (fun o => o.getD dflt) →
      let r := LabelVector.runAll dflt s t ops
      r.1.labels = r.2.map (fun o => o.getD dflt) ∧ ∀ l i, r.2[i]? = some (some l) → r.1.find l = some i := by
    intro ops
    induction ops with
    | nil => intro s t _ h hd; exact ⟨hd, h⟩
    | cons op ops ih =>
      intro s t hl h hd
      simp only [LabelVector.runAll]
      cases hs : s.step dflt op with
      | ok s' =>
        obtain ⟨h1, h2, h3⟩ := C07_stored_step dflt s t hl h hd op s' hs
        exact ih _ _ h1 h2 h3
      | err => exact ih _ _ hl h hd
      | ub => exact ih _ _ hl h hd
  exact gen ops _ _ (by simp [LabelVector.ofSize])
    (by intro l i hi; rw [List.getElem?_replicate] at hi; split at hi <;> cases hi) (by simp [LabelVector.ofSize])

/-- **C07 is violated** by the constructors that take labels: whatever labels they are given, no label is found,
so a stored label can be added a second time. -/
theorem C07_label_constructors_violated (ls : List L) (l : L) :
    (LabelVector.ofLabels ls).find l = none ∧ (LabelVector.ofLabels ls).findOrThrow l = .err ∧
    (l ∈ ls → ∃ s, (LabelVector.ofLabels ls).add l = .ok (ls.length, s) ∧ 2 ≤ s.labels.count l) := by
  refine ⟨rfl, rfl, fun hm => ⟨⟨ls ++ [l], put (fun _ => none) l ls.length⟩, rfl, ?_⟩⟩
  have := List.count_pos_iff.2 hm
  simp only [List.count_append, List.count_singleton_self]; omega

/-- **C07 is violated** by `set` on a labelled slot: the old label is still found, at an index where another label
is stored. -/
theorem C07_relabel_violated :
    ∃ s : LabelVector String, (LabelVector.ofSize "" 0).run "" [.add "a", .set 0 "b"] = .ok s ∧
      s.find "a" = some 0 ∧ s.at' 0 = .ok "b" := by
  refine ⟨⟨["b"], put (put (fun _ => none) "a" 0) "b" 0⟩, ?_, ?_, rfl⟩
  · simp [LabelVector.run, LabelVector.step, LabelVector.add, LabelVector.set, LabelVector.ofSize,
      LabelVector.find, Res.bind, put]
  · simp [LabelVector.find, put]

/-- Non-vacuity: a history with blank slots, labelling a blank slot, adding, growing and re-finding. -/
example : LabelRun (L := String) (List.replicate 2 none)
    [.set 1 "x", .add "y", .findOrAdd "x", .resize 4, .set 0 "z"]
    [some "z", some "x", some "y", none] := by
  refine .cons (s1 := [none, some "x"]) ?_ ?_ (.cons (s1 := [none, some "x", some "y"]) trivial ?_
    (.cons (s1 := [none, some "x", some "y"]) trivial ?_ (.cons (s1 := [none, some "x", some "y", none]) trivial ?_
      (.cons ?_ ?_ (.nil _)))))
  · simp [fresh]
  all_goals simp [labelStep, fresh]

end Xo
