import Verif.Model.Recorder
import Verif.Props.C08_Storage
import Mathlib.Tactic.Ring
import Mathlib.Tactic.FieldSimp
import Mathlib.Algebra.BigOperators.Field
import Mathlib.Tactic.Linarith
import Mathlib.Algebra.BigOperators.Group.List.Basic
import Mathlib.Algebra.BigOperators.Ring.Finset
import Mathlib.Algebra.Order.BigOperators.Ring.Finset
import Mathlib.Algebra.Order.Field.Basic

/-!
C90: recording values by label, vectors in frames, means and covariances.
-/
namespace Xo.Recorder
open Spec
variable {T L : Type} [DecidableEq L]

/-! ## The table with its labels -/

/-- The storage holds this matrix, and its channels have these labels, in this order. -/
def Lab (s : Storage T L) (ls : List L) (m : Matrix T) : Prop :=
  Storage.Rel s m ∧ s.labels.labels = ls ∧ ls.Nodup ∧ ∀ l, s.labels.idx l = if l ∈ ls then some (ls.idxOf l) else none

theorem lab_empty (ldflt : L) (v : T) : Lab (Storage.make ldflt 0 0 v) [] ⟨0, 0, fun _ _ => v⟩ := by
  refine ⟨⟨rfl, rfl, ?_⟩, rfl, List.nodup_nil, fun l => rfl⟩
  exact ⟨rfl, fun r c h => absurd h (Nat.not_lt_zero _)⟩

theorem Lab.cols {s : Storage T L} {ls : List L} {m : Matrix T} (h : Lab s ls m) : m.cols = ls.length := by
  rw [← h.1.2.1, ← h.2.1]; rfl

theorem resize_labels (ldflt : L) (s s' : Storage T L) (F : Nat) (v : T) (e : s.resize ldflt F (s.channels + 1) v = .ok s') :
    s'.labels.labels = s.labels.labels ++ [ldflt] := by
  unfold Storage.resize at e
  split at e
  · cases e
  · rw [if_pos (by omega)] at e
    have hl : s.labels.resize ldflt (s.channels + 1) = .ok ⟨s.labels.labels ++ [ldflt], s.labels.idx⟩ := by
      unfold LabelVector.resize Storage.channels LabelVector.size
      rw [if_neg (by omega)]; simp
    rw [hl] at e
    revert e
    generalize (if s.frames > 1 then _ else _ : Res (List T)) = r
    cases r <;> intro e <;> simp only [Res.bind] at e <;> cases e
    rfl

/-- Adding a channel under a new label. -/
theorem findOrAdd_new (ldflt : L) {s : Storage T L} {ls : List L} {m : Matrix T} (h : Lab s ls m) (l : L) (hl : l ∉ ls) (v : T) :
    ∃ s', s.findOrAddChannel ldflt l v = (.ok ls.length, s') ∧ Lab s' (ls ++ [l]) (m.grow m.rows (m.cols + 1) v) := by
  have hr := h.1
  have hc := h.cols
  obtain ⟨s1, e1, r1, hi⟩ := Storage.resize_ok ldflt hr (Nat.le_refl _) (Nat.le_succ m.cols) v
  have e1' : s.resize ldflt s.frames (s.channels + 1) v = .ok s1 := by rw [hr.1, hr.2.1]; exact e1
  have hlab := resize_labels ldflt s s1 _ v e1'
  have hs1 : s1.channels = ls.length + 1 := by rw [r1.2.1]; simp [Matrix.grow, hc]
  have hidx : s1.labels.idx l = none := by rw [hi, h.2.2.2, if_neg hl]
  have hset : s1.labels.set (s1.channels - 1) l =
      .ok ⟨ls ++ [l], LabelVector.put s.labels.idx l ls.length⟩ := by
    unfold LabelVector.set
    rw [if_pos ⟨by show _ < s1.channels; omega, hidx⟩, hlab, h.2.1, hs1, hi]
    simp
  refine ⟨⟨s1.frames, ⟨ls ++ [l], LabelVector.put s.labels.idx l ls.length⟩, s1.data⟩, ?_, ?_, rfl, ?_, ?_⟩
  · have : s.labels.find l = none := by unfold LabelVector.find; rw [h.2.2.2, if_neg hl]
    simp only [Storage.findOrAddChannel, this, Storage.addChannel, e1', hset]
    rw [hs1]; rfl
  · exact ⟨r1.1, by show (ls ++ [l]).length = _; simp [Matrix.grow, hc], r1.2.2⟩
  · exact List.nodup_append.2 ⟨h.2.2.1, List.nodup_singleton _, by simpa using fun a ha (e : a = l) => hl (e ▸ ha)⟩
  · intro l'
    simp only [LabelVector.put, h.2.2.2]
    by_cases e : l' = l
    · subst e; rw [if_pos rfl, if_pos (by simp), List.idxOf_append_of_notMem hl]; simp
    · rw [if_neg e]
      by_cases e2 : l' ∈ ls
      · rw [if_pos e2, if_pos (by simp [e2]), List.idxOf_append_of_mem e2]
      · rw [if_neg e2, if_neg (by simp [e, e2])]

/-- Finding a channel. -/
theorem findOrAdd_old (ldflt : L) {s : Storage T L} {ls : List L} {m : Matrix T} (h : Lab s ls m) (l : L) (hl : l ∈ ls) (v : T) :
    s.findOrAddChannel ldflt l v = (.ok (ls.idxOf l), s) := by
  have : s.labels.find l = some (ls.idxOf l) := by unfold LabelVector.find; rw [h.2.2.2, if_pos hl]
  simp only [Storage.findOrAddChannel, this]

theorem lab_get {s : Storage T L} {ls : List L} {m : Matrix T} (h : Lab s ls m) (f c : Nat) (hf : f < m.rows) (hc : c < m.cols) :
    s.get f c = .ok (m.cell f c) := by
  unfold Storage.get; apply Vec.get_ok; rw [h.1.2.1]; exact h.1.2.2.2 f c hf hc

theorem lab_addFrame {s : Storage T L} {ls : List L} {m : Matrix T} (h : Lab s ls m) (v : T) :
    Lab (s.addFrame v) ls (m.grow (m.rows + 1) m.cols v) := by
  refine ⟨?_, h.2.1, h.2.2.1, h.2.2.2⟩
  obtain ⟨h1, h2, h3⟩ := h.1
  refine ⟨by simp [Storage.addFrame, Matrix.grow, h1], h2, ?_⟩
  show Holds (Vec.resize s.data (s.data.length + s.channels) v) (m.rows + 1) m.cols _
  have : s.data.length + s.channels = (m.rows + 1) * m.cols := by rw [h3.1, h2]; ring
  rw [this]
  exact resize_holds h3 (Nat.le_succ _) (Nat.le_refl _) (Or.inr rfl) v

theorem lab_write {s : Storage T L} {ls : List L} {m : Matrix T} (h : Lab s ls m) {f c : Nat} (hf : f < m.rows) (hc : c < m.cols)
    (v : T) : ∃ s', s.write f c v = .ok s' ∧ Lab s' ls (m.write f c v) := by
  have := Storage.write_ok h.1 hf hc v
  exact ⟨_, this.1, this.2, h.2.1, h.2.2.1, h.2.2.2⟩

/-! ## Recording values by label -/

namespace Spec
/-- What was recorded, newest frame first: each frame has for each label a value or none. -/
abbrev Frames (L T : Type) := List (L → Option T)

/-- A value goes to the newest frame, if that has none for the label yet; otherwise to a new frame. -/
def record1 (fs : Frames L T) (w : L × T) : Frames L T :=
  match fs with
  | [] => [fun l => if l = w.1 then some w.2 else none]
  | f :: r => if (f w.1).isSome then (fun l => if l = w.1 then some w.2 else none) :: f :: r
              else (fun l => if l = w.1 then some w.2 else f l) :: r

def record : Frames L T → List (L × T) → Frames L T
  | fs, [] => fs
  | fs, w :: ws => record (record1 fs w) ws

/-- The labels in the order in which they came up first. -/
def labels : List L → List (L × T) → List L
  | ls, [] => ls
  | ls, w :: ws => labels (if w.1 ∈ ls then ls else ls ++ [w.1]) ws

/-- The values that were written with a label, in order. -/
def written (l : L) (ws : List (L × T)) : List T := ws.filterMap fun w => if w.1 = l then some w.2 else none
end Spec

/-- The matrix of the storage shows what was recorded. -/
def Shows (sent : T) (ls : List L) (m : Matrix T) (fs : Spec.Frames L T) : Prop :=
  m.rows = fs.length ∧
  (∀ (k : Nat) l, k < fs.length → l ∈ ls → some (m.cell k (ls.idxOf l)) = (fs.reverse[k]?).map fun f => (f l).getD sent) ∧
  (∀ f ∈ fs, ∀ l, l ∉ ls → f l = none) ∧ (∀ f ∈ fs, ∀ l, f l ≠ some sent) ∧ (fs ≠ [] → ls ≠ [])


theorem idx_lt_cols {s : Storage T L} {ls : List L} {m : Matrix T} (h : Lab s ls m) {l : L} (hl : l ∈ ls) : ls.idxOf l < m.cols := by
  rw [h.cols]; exact List.idxOf_lt_length_iff.2 hl

theorem shows_find (ldflt : L) (sent : T) {s : Storage T L} {ls : List L} {m : Matrix T} {fs : Spec.Frames L T} (h : Lab s ls m)
    (hs : Shows sent ls m fs) (l : L) :
    ∃ s1 m1, s.findOrAddChannel ldflt l sent = (.ok ((if l ∈ ls then ls else ls ++ [l]).idxOf l), s1) ∧
      Lab s1 (if l ∈ ls then ls else ls ++ [l]) m1 ∧ Shows sent (if l ∈ ls then ls else ls ++ [l]) m1 fs := by
  by_cases hl : l ∈ ls
  · rw [if_pos hl]; exact ⟨s, m, findOrAdd_old ldflt h l hl sent, h, hs⟩
  · rw [if_neg hl]
    obtain ⟨s1, e1, h1⟩ := findOrAdd_new ldflt h l hl sent
    refine ⟨s1, _, ?_, h1, ?_, ?_, ?_, hs.2.2.2.1, by simp⟩
    · rw [e1, List.idxOf_append_of_notMem hl]; simp
    · exact hs.1
    · intro k l' hk hl'
      simp only [Matrix.grow, h.cols]
      by_cases e : l' ∈ ls
      · rw [List.idxOf_append_of_mem e, if_pos ⟨by rw [hs.1]; exact hk, List.idxOf_lt_length_iff.2 e⟩]
        exact hs.2.1 k l' hk e
      · have : l' = l := by simpa [e] using hl'
        subst this
        rw [List.idxOf_append_of_notMem hl, if_neg (by simp)]
        have hk' : k < fs.reverse.length := by simpa using hk
        rw [List.getElem?_eq_getElem hk']
        have : fs.reverse[k] ∈ fs := List.mem_reverse.1 (List.getElem_mem hk')
        rw [Option.map_some, hs.2.2.1 _ this l' hl]; rfl
    · intro f hf l' hl'
      exact hs.2.2.1 f hf l' (fun e => hl' (by simp [e]))

/-- A new frame with one value. -/
theorem shows_new (sent : T) {s : Storage T L} {ls : List L} {m : Matrix T} {fs : Spec.Frames L T} (h : Lab s ls m)
    (hs : Shows sent ls m fs) {l : L} (hl : l ∈ ls) {v : T} (hv : v ≠ sent) :
    ∃ s' m', (s.addFrame sent).write m.rows (ls.idxOf l) v = .ok s' ∧ Lab s' ls m' ∧
      Shows sent ls m' ((fun l' => if l' = l then some v else none) :: fs) := by
  have h2 := lab_addFrame h sent
  obtain ⟨s', e, h3⟩ := lab_write h2 (f := m.rows) (c := ls.idxOf l) (by simp [Matrix.grow]) (idx_lt_cols h hl) v
  refine ⟨s', _, e, h3, ?_, ?_, ?_, ?_, ?_⟩
  · simp [Matrix.write, Matrix.grow, hs.1]
  · intro k l' hk hl'
    have hi := idx_lt_cols h hl'
    simp only [Matrix.write, Matrix.grow, List.reverse_cons]
    by_cases hk2 : k < fs.length
    · rw [if_neg (by rw [hs.1]; omega), if_pos ⟨by rw [hs.1]; exact hk2, hi⟩, List.getElem?_append_left (by simpa using hk2)]
      exact hs.2.1 k l' hk2 hl'
    · have : k = fs.length := by simp at hk; omega
      subst this
      rw [List.getElem?_append_right (by simp)]
      simp only [List.length_reverse, Nat.sub_self, List.getElem?_cons_zero, Option.map_some, hs.1, true_and, Nat.lt_irrefl, false_and,
        if_false]
      by_cases e : l' = l
      · subst e; simp
      · rw [if_neg (fun e2 => e (by have := List.idxOf_inj hl' |>.1 e2; exact this)), if_neg e]; rfl
  · intro f hf l' hl'
    rcases List.mem_cons.1 hf with rfl | hf
    · exact if_neg (fun (e : l' = l) => hl' (e ▸ hl))
    · exact hs.2.2.1 f hf l' hl'
  · intro f hf l'
    rcases List.mem_cons.1 hf with rfl | hf
    · by_cases e : l' = l <;> simp [e, hv]
    · exact hs.2.2.2.1 f hf l'
  · intro _ e; rw [e] at hl; cases hl

/-- A value in the newest frame, which had none for the label. -/
theorem shows_last (sent : T) {s : Storage T L} {ls : List L} {m : Matrix T} {f : L → Option T} {fs : Spec.Frames L T} (h : Lab s ls m)
    (hs : Shows sent ls m (f :: fs)) {l : L} (hl : l ∈ ls) {v : T} (hv : v ≠ sent) :
    ∃ s' m', s.write (m.rows - 1) (ls.idxOf l) v = .ok s' ∧ Lab s' ls m' ∧
      Shows sent ls m' ((fun l' => if l' = l then some v else f l') :: fs) := by
  have hr : m.rows = fs.length + 1 := by rw [hs.1]; simp
  obtain ⟨s', e, h3⟩ := lab_write h (f := m.rows - 1) (c := ls.idxOf l) (by omega) (idx_lt_cols h hl) v
  refine ⟨s', _, e, h3, ?_, ?_, ?_, ?_, ?_⟩
  · simp [Matrix.write, hr]
  · intro k l' hk hl'
    have hold := hs.2.1 k l' (by simpa using hk) hl'
    simp only [Matrix.write, List.reverse_cons] at hold ⊢
    by_cases hk2 : k < fs.length
    · rw [if_neg (by omega), List.getElem?_append_left (by simpa using hk2)]
      rw [List.getElem?_append_left (by simpa using hk2)] at hold
      exact hold
    · have : k = fs.length := by simp at hk; omega
      subst this
      rw [List.getElem?_append_right (by simp)] at hold ⊢
      simp only [List.length_reverse, Nat.sub_self, List.getElem?_cons_zero, Option.map_some, hr, Nat.add_sub_cancel, true_and] at hold ⊢
      by_cases e : l' = l
      · subst e; simp
      · rw [if_neg (fun e2 => e (by have := List.idxOf_inj hl' |>.1 e2; exact this)), if_neg e]; exact hold
  · intro g hg l' hl'
    rcases List.mem_cons.1 hg with rfl | hg
    · show (if l' = l then _ else _) = none
      rw [if_neg (fun (e : l' = l) => hl' (e ▸ hl))]; exact hs.2.2.1 f (by simp) l' hl'
    · exact hs.2.2.1 g (by simp [hg]) l' hl'
  · intro g hg l'
    rcases List.mem_cons.1 hg with rfl | hg
    · show (if l' = l then _ else _) ≠ _
      by_cases e : l' = l
      · simp [e, hv]
      · rw [if_neg e]; exact hs.2.2.2.1 f (by simp) l'
    · exact hs.2.2.2.1 g (by simp [hg]) l'
  · intro _ e; rw [e] at hl; cases hl

theorem write_step [DecidableEq T] (ldflt : L) (sent : T) {s : Storage T L} {ls : List L} {m : Matrix T} {fs : Spec.Frames L T}
    (h : Lab s ls m) (hs : Shows sent ls m fs) (w : L × T) (hv : w.2 ≠ sent) :
    ∃ s' m', write ldflt sent s w.1 w.2 = .ok s' ∧ Lab s' (if w.1 ∈ ls then ls else ls ++ [w.1]) m' ∧
      Shows sent (if w.1 ∈ ls then ls else ls ++ [w.1]) m' (Spec.record1 fs w) := by
  obtain ⟨l, v⟩ := w
  obtain ⟨s1, m1, e1, h1, hs1⟩ := shows_find ldflt sent h hs l
  have hl : l ∈ (if l ∈ ls then ls else ls ++ [l]) := by split <;> simp [*]
  generalize (if l ∈ ls then ls else ls ++ [l]) = ls1 at e1 h1 hs1 hl ⊢
  have hi := idx_lt_cols h1 hl
  have hlen : s1.data.length = m1.rows * m1.cols := h1.1.2.2.1
  simp only [write, e1]
  have hfr : (s1.addFrame sent).frames - 1 = m1.rows := by simp [Storage.addFrame, h1.1.1]
  have hb : back (s1.addFrame sent) = .ok m1.rows := by
    unfold back; rw [if_neg (by simp [Storage.addFrame]), hfr]
  cases fs with
  | nil =>
    have hr : m1.rows = 0 := by rw [hs1.1]; rfl
    have : s1.data.isEmpty = true := by simp [← List.length_eq_zero_iff, hlen, hr]
    obtain ⟨s', m', e2, h2, hs2⟩ := shows_new sent h1 hs1 hl hv
    exact ⟨s', m', by simp only [this, if_true, Res.bind, hb, e2], h2, hs2⟩
  | cons f r =>
    have hr : m1.rows = r.length + 1 := by rw [hs1.1]; rfl
    have hne : ¬ (s1.data.isEmpty = true) := by
      simp only [List.isEmpty_iff, ← List.length_eq_zero_iff, hlen, Nat.mul_eq_zero]; omega
    have hb1 : back s1 = .ok (m1.rows - 1) := by unfold back; rw [if_neg (by rw [h1.1.1]; omega), h1.1.1]
    have hg := lab_get h1 (m1.rows - 1) (ls1.idxOf l) (by omega) hi
    have hcell := hs1.2.1 (m1.rows - 1) l (by rw [hr]; simp) hl
    rw [hr] at hcell
    simp only [Nat.add_sub_cancel, List.reverse_cons] at hcell
    rw [List.getElem?_append_right (by simp)] at hcell
    simp only [List.length_reverse, Nat.sub_self, List.getElem?_cons_zero, Option.map_some, Option.some.injEq] at hcell
    rw [hr, Nat.add_sub_cancel] at hg
    rw [hr, Nat.add_sub_cancel] at hb1
    simp only [if_neg hne, hb1, Res.bind, hg, hcell]
    by_cases hf : (f l).isSome
    · obtain ⟨x, hx⟩ := Option.isSome_iff_exists.1 hf
      have hxs : x ≠ sent := fun e => hs1.2.2.2.1 f (by simp) l (by rw [hx, e])
      obtain ⟨s', m', e2, h2, hs2⟩ := shows_new sent h1 hs1 hl hv
      refine ⟨s', m', ?_, h2, ?_⟩
      · rw [hx, Option.getD_some, if_pos hxs, hb]; exact e2
      · simp only [Spec.record1, hf, if_true]; exact hs2
    · have hn : f l = none := by simpa using hf
      obtain ⟨s', m', e2, h2, hs2⟩ := shows_last sent h1 hs1 hl hv
      refine ⟨s', m', ?_, h2, ?_⟩
      · rw [hn, Option.getD_none, if_neg (by simp), hb1]
        rw [hr, Nat.add_sub_cancel] at e2; exact e2
      · simp only [Spec.record1, if_neg hf]; exact hs2


theorem shows_channel {sent : T} {s : Storage T L} {ls : List L} {m : Matrix T} {fs : Spec.Frames L T} (h : Lab s ls m)
    (hs : Shows sent ls m fs) {l : L} (hl : l ∈ ls) : channel s l = .ok (fs.reverse.map fun f => (f l).getD sent) := by
  have hi := idx_lt_cols h hl
  have hf : s.labels.findOrThrow l = .ok (ls.idxOf l) := by
    unfold LabelVector.findOrThrow; rw [h.2.2.2, if_pos hl]; rfl
  have gen : ∀ (n k : Nat), k + n = fs.length → ((List.range' k n).mapM fun f => s.get f (ls.idxOf l)) =
      .ok ((fs.reverse.drop k).map fun f => (f l).getD sent) := by
    intro n
    induction n with
    | zero => intro k hk; rw [List.drop_eq_nil_of_le (by simp; omega)]; rfl
    | succ n ih =>
      intro k hk
      have hk' : k < fs.reverse.length := by simp; omega
      have hc := hs.2.1 k l (by omega) hl
      rw [List.getElem?_eq_getElem hk', Option.map_some, Option.some.injEq] at hc
      rw [List.range'_succ, List.mapM_cons, ih (k + 1) (by omega), lab_get h k _ (by rw [hs.1]; omega) hi,
        List.drop_eq_getElem_cons hk']
      simp only [Res.bind_ok, List.map_cons, hc]
      rfl
  simp only [channel, hf, Res.bind, Storage.getChannel]
  rw [List.range_eq_range', h.1.1, hs.1, gen _ 0 (by omega)]
  simp

theorem record_gen [DecidableEq T] (ldflt : L) (sent : T) (ws : List (L × T)) : ∀ (s : Storage T L) (ls : List L) (m : Matrix T)
    (fs : Spec.Frames L T), Lab s ls m → Shows sent ls m fs → (∀ w ∈ ws, w.2 ≠ sent) →
    ∃ s' m', record ldflt sent s ws = .ok s' ∧ Lab s' (Spec.labels ls ws) m' ∧ Shows sent (Spec.labels ls ws) m' (Spec.record fs ws) := by
  induction ws with
  | nil => intro s ls m fs h hs _; exact ⟨s, m, rfl, h, hs⟩
  | cons w ws ih =>
    intro s ls m fs h hs hv
    obtain ⟨s1, m1, e1, h1, hs1⟩ := write_step ldflt sent h hs w (hv w (by simp))
    obtain ⟨s2, m2, e2, h2, hs2⟩ := ih s1 _ m1 _ h1 hs1 (fun w hw => hv w (by simp [hw]))
    exact ⟨s2, m2, by simp only [record, e1, Res.bind, e2], h2, hs2⟩

/-- **C90.** For every history of recorded values other than the sentinel: the channels are the labels in the order in which they came up, the
frames are those of the specification, and a channel shows for every frame the value with that label, or the sentinel if there is none. -/
theorem C90_record_partial [DecidableEq T] (ldflt : L) (sent d : T) (ws : List (L × T)) (hv : ∀ w ∈ ws, w.2 ≠ sent) :
    ∃ s, record ldflt sent (Storage.make ldflt 0 0 d) ws = .ok s ∧ s.labels.labels = Spec.labels [] ws ∧
      s.frames = (Spec.record [] ws).length ∧
      ∀ l ∈ Spec.labels [] ws, channel s l = .ok ((Spec.record [] ws).reverse.map fun f => (f l).getD sent) := by
  obtain ⟨s, m, e, h, hs⟩ := record_gen ldflt sent ws (Storage.make ldflt 0 0 d) [] ⟨0, 0, fun _ _ => d⟩ [] (lab_empty ldflt d)
    ⟨rfl, fun k l hk => absurd hk (Nat.not_lt_zero _), fun f hf => absurd hf (by simp), fun f hf => absurd hf (by simp), fun h => absurd rfl h⟩ hv
  exact ⟨s, e, h.2.1, by rw [h.1.1, hs.1], fun l hl => shows_channel h hs hl⟩

theorem mem_labels (ws : List (L × T)) : ∀ (ls : List L) (l : L), l ∈ Spec.labels ls ws ↔ l ∈ ls ∨ l ∈ ws.map Prod.fst := by
  induction ws with
  | nil => intro ls l; simp [Spec.labels]
  | cons w ws ih =>
    intro ls l
    simp only [Spec.labels, ih, List.map_cons, List.mem_cons]
    by_cases h : w.1 ∈ ls
    · rw [if_pos h]
      constructor
      · rintro (h1 | h1) <;> simp [h1]
      · rintro (h1 | rfl | h1) <;> simp [*]
    · rw [if_neg h]; simp only [List.mem_append, List.mem_singleton]; tauto

theorem record_values (l : L) (ws : List (L × T)) : ∀ fs : Spec.Frames L T,
    (Spec.record fs ws).reverse.filterMap (fun f => f l) = fs.reverse.filterMap (fun f => f l) ++ Spec.written l ws := by
  induction ws with
  | nil => intro fs; simp [Spec.record, Spec.written]
  | cons w ws ih =>
    intro fs
    obtain ⟨l', v⟩ := w
    have key : (Spec.record1 fs (l', v)).reverse.filterMap (fun f => f l) =
        fs.reverse.filterMap (fun f => f l) ++ (if l' = l then [v] else []) := by
      cases fs with
      | nil => by_cases e : l = l' <;> simp [Spec.record1, e, eq_comm]
      | cons f r =>
        unfold Spec.record1
        by_cases hf : (f l').isSome
        · simp only [hf, if_true, List.reverse_cons, List.filterMap_append]
          by_cases e : l = l'
          · subst e; simp
          · simp [e, Ne.symm e]
        · have hn : f l' = none := by simpa using hf
          simp only [hn, Option.isSome_none, Bool.false_eq_true, if_false, List.reverse_cons, List.filterMap_append]
          by_cases e : l = l'
          · subst e; simp [hn]
          · rw [if_neg (Ne.symm e), List.append_nil]; simp only [List.filterMap_cons, if_neg e]
    rw [Spec.record, ih, key, List.append_assoc]
    congr 1
    by_cases e : l' = l <;> simp [Spec.written, e]

theorem record_no_sent (sent : T) (ws : List (L × T)) : ∀ fs : Spec.Frames L T, (∀ f ∈ fs, ∀ l, f l ≠ some sent) → (∀ w ∈ ws, w.2 ≠ sent) →
    ∀ f ∈ Spec.record fs ws, ∀ l, f l ≠ some sent := by
  induction ws with
  | nil => intro fs h _; exact h
  | cons w ws ih =>
    intro fs h hv
    have hw : w.2 ≠ sent := hv w (by simp)
    refine ih _ ?_ (fun w hw => hv w (by simp [hw]))
    intro f hf l
    cases fs with
    | nil =>
      simp only [Spec.record1, List.mem_singleton] at hf
      subst hf; by_cases e : l = w.1 <;> simp [e, hw]
    | cons g r =>
      simp only [Spec.record1] at hf
      split at hf
      · rcases List.mem_cons.1 hf with rfl | hf
        · by_cases e : l = w.1 <;> simp [e, hw]
        · exact h f hf l
      · rcases List.mem_cons.1 hf with rfl | hf
        · by_cases e : l = w.1
          · simp [e, hw]
          · simpa [e] using h g (by simp) l
        · exact h f (by simp [hf]) l

/-- No value is lost, repeated or moved to another label: without the sentinels, a channel is exactly the sequence of the values that were
recorded with its label. -/
theorem C90_nothing_lost [DecidableEq T] (ldflt : L) (sent d : T) (ws : List (L × T)) (hv : ∀ w ∈ ws, w.2 ≠ sent) (l : L) (hl : l ∈ ws.map Prod.fst) :
    ∃ s xs, record ldflt sent (Storage.make ldflt 0 0 d) ws = .ok s ∧ channel s l = .ok xs ∧
      xs.filter (fun x => decide (x ≠ sent)) = Spec.written l ws := by
  obtain ⟨s, e, _, _, hc⟩ := C90_record_partial ldflt sent d ws hv
  refine ⟨s, _, e, hc l ((mem_labels ws [] l).2 (Or.inr hl)), ?_⟩
  have h1 := record_values l ws []
  simp only [List.reverse_nil, List.filterMap_nil, List.nil_append] at h1
  rw [← h1]
  have h2 := record_no_sent sent ws [] (by simp) hv
  have h3 : ∀ f ∈ (Spec.record [] ws).reverse, ∀ l, f l ≠ some sent := fun f hf => h2 f (List.mem_reverse.1 hf)
  revert h3
  generalize (Spec.record [] ws).reverse = fs
  intro h3
  induction fs with
  | nil => rfl
  | cons f fs ih =>
    have ih := ih (fun g hg => h3 g (by simp [hg]))
    have hf := h3 f (by simp) l
    cases hx : f l with
    | none => simpa [hx] using ih
    | some x =>
      have : x ≠ sent := fun e => hf (by rw [hx, e])
      simpa [hx, this] using ih

/-- Values that are recorded with different labels, one after the other, are in one frame. -/
theorem C90_one_frame (ws : List (L × T)) (h : (ws.map Prod.fst).Nodup) (hne : ws ≠ []) : (Spec.record [] ws).length = 1 := by
  have gen : ∀ (ws : List (L × T)) (f : L → Option T), (ws.map Prod.fst).Nodup → (∀ w ∈ ws, f w.1 = none) →
      (Spec.record [f] ws).length = 1 := by
    intro ws
    induction ws with
    | nil => intro f _ _; rfl
    | cons w ws ih =>
      intro f hn hf
      simp only [List.map_cons, List.nodup_cons] at hn
      simp only [Spec.record, Spec.record1, hf w (by simp), Option.isSome_none, Bool.false_eq_true, if_false]
      refine ih _ hn.2 ?_
      intro w' hw'
      have : w'.1 ≠ w.1 := fun e => hn.1 (e ▸ List.mem_map_of_mem hw')
      simp [this, hf w' (by simp [hw'])]
  cases ws with
  | nil => exact absurd rfl hne
  | cons w ws =>
    simp only [List.map_cons, List.nodup_cons] at h
    refine gen ws _ h.2 ?_
    intro w' hw'
    have : w'.1 ≠ w.1 := fun e => h.1 (e ▸ List.mem_map_of_mem hw')
    simp [this]

/-- **C90 is violated by the sentinel**: it is replaced by the next value with the same label, as if it had not been recorded. -/
theorem C90_sentinel_violated [DecidableEq T] (ldflt : L) (sent d v : T) (l : L) :
    record ldflt sent (Storage.make ldflt 0 0 d) [(l, sent), (l, v)] = record ldflt sent (Storage.make ldflt 0 0 d) [(l, v)] ∧
    Spec.written l [(l, sent), (l, v)] ≠ Spec.written l [(l, v)] := by
  constructor
  · simp [record, write, Storage.findOrAddChannel, LabelVector.find, Storage.make, LabelVector.ofSize, Storage.addChannel, Storage.resize,
      Storage.channels, LabelVector.size, LabelVector.resize, LabelVector.set, LabelVector.put, Res.bind, Vec.resize, Storage.addFrame, back,
      Storage.write, Vec.set, Storage.get, Vec.get]
  · simp [Spec.written]

/-- Non-vacuity: three labels, one of them late. -/
example : (record "" 0 (Storage.make "" 0 0 (0 : Int)) [("a", 1), ("b", 2), ("a", 3), ("c", 4), ("a", 5), ("b", 6)]).map
    (fun s => (s.labels.labels, s.frames, s.data)) = .ok (["a", "b", "c"], 3, [1, 2, 0, 3, 0, 4, 5, 6, 0]) := by decide +kernel


/-! ## Vectors in frames -/

/-- The value of a frame for a label, or none if there is no such channel. -/
def val (ls : List L) (m : Matrix T) (f : Nat) (l : L) : Option T := if l ∈ ls then some (m.cell f (ls.idxOf l)) else none

theorem frameSet_ok (ldflt : L) (dflt : T) {s : Storage T L} {ls : List L} {m : Matrix T} (h : Lab s ls m) {f : Nat} (hf : f < m.rows)
    (l : L) (v : T) : ∃ s' m', frameSet ldflt dflt s f l v = .ok s' ∧ Lab s' (if l ∈ ls then ls else ls ++ [l]) m' ∧ m'.rows = m.rows ∧
      ∀ f' l', f' < m.rows → val (if l ∈ ls then ls else ls ++ [l]) m' f' l' =
        if l' = l then some (if f' = f then v else (val ls m f' l).getD dflt) else val ls m f' l' := by
  by_cases hl : l ∈ ls
  · rw [if_pos hl]
    obtain ⟨s', e, h'⟩ := lab_write h hf (idx_lt_cols h hl) v
    refine ⟨s', _, ?_, h', rfl, ?_⟩
    · simp only [frameSet, findOrAdd_old ldflt h l hl dflt]; exact e
    · intro f' l' hf'
      by_cases e : l' = l
      · subst e; rw [if_pos rfl]; simp only [val, if_pos hl, Matrix.write, and_true, Option.getD_some]
      · rw [if_neg e]
        by_cases hl' : l' ∈ ls
        · simp only [val, if_pos hl', Matrix.write]
          rw [if_neg (fun e2 => e ((List.idxOf_inj hl').1 e2.2))]
        · simp only [val, if_neg hl']
  · rw [if_neg hl]
    obtain ⟨s1, e1, h1⟩ := findOrAdd_new ldflt h l hl dflt
    have hc : ls.length < (m.grow m.rows (m.cols + 1) dflt).cols := by simp [Matrix.grow, h.cols]
    obtain ⟨s', e, h'⟩ := lab_write h1 (f := f) hf hc v
    refine ⟨s', _, ?_, h', rfl, ?_⟩
    · simp only [frameSet, e1]; exact e
    · intro f' l' hf'
      by_cases e : l' = l
      · subst e
        rw [if_pos rfl]
        simp only [val, List.mem_append, List.mem_singleton, or_true, if_true, Matrix.write, Matrix.grow, List.idxOf_append_of_notMem hl,
          if_neg hl, Option.getD_none, h.cols]
        simp
      · rw [if_neg e]
        by_cases hl' : l' ∈ ls
        · have := List.idxOf_lt_length_iff.2 hl'
          simp only [val, List.mem_append, hl', true_or, if_true, Matrix.write, Matrix.grow, List.idxOf_append_of_mem hl', h.cols]
          rw [if_neg (by omega), if_pos ⟨hf', this⟩]
        · simp [val, hl', e]

namespace Spec
/-- The value for a label after components have been written in this order: the last one with this label. -/
def last (l : L) : List (L × T) → Option T
  | [] => none
  | c :: cs => (last l cs).orElse fun _ => if c.1 = l then some c.2 else none
end Spec

theorem writeAll_ok (ldflt : L) (dflt : T) (f : Nat) (cs : List (L × T)) : ∀ {s : Storage T L} {ls : List L} {m : Matrix T}, Lab s ls m →
    f < m.rows → ∃ s' ls' m', writeAll ldflt dflt f cs s = .ok s' ∧ Lab s' ls' m' ∧ m'.rows = m.rows ∧
      (∀ l, l ∈ ls' ↔ l ∈ ls ∨ l ∈ cs.map Prod.fst) ∧
      ∀ l, val ls' m' f l = (Spec.last l cs).orElse fun _ => val ls m f l := by
  induction cs with
  | nil => intro s ls m h hf; exact ⟨s, ls, m, rfl, h, rfl, by simp, by simp [Spec.last]⟩
  | cons c cs ih =>
    intro s ls m h hf
    obtain ⟨s1, m1, e1, h1, hr1, hv1⟩ := frameSet_ok ldflt dflt h hf c.1 c.2
    obtain ⟨s2, ls2, m2, e2, h2, hr2, hl2, hv2⟩ := ih h1 (by rw [hr1]; exact hf)
    refine ⟨s2, ls2, m2, by simp only [writeAll, e1, Res.bind, e2], h2, by rw [hr2, hr1], ?_, ?_⟩
    · intro l; rw [hl2, List.map_cons, List.mem_cons]
      by_cases hc : c.1 ∈ ls
      · rw [if_pos hc]
        constructor
        · rintro (h | h) <;> simp [h]
        · rintro (h | rfl | h) <;> simp [*]
      · rw [if_neg hc]; simp only [List.mem_append, List.mem_singleton]; tauto
    · intro l
      rw [hv2, hv1 f l hf, Spec.last]
      cases Spec.last l cs with
      | some x => rfl
      | none =>
        by_cases e : l = c.1
        · subst e; simp
        · simp [e, Ne.symm e]

theorem frameGet_ok {s : Storage T L} {ls : List L} {m : Matrix T} (h : Lab s ls m) {f : Nat} (hf : f < m.rows) (l : L) :
    frameGet s (constFrame s f) l = Res.ofOptionErr (val ls m f l) := by
  unfold frameGet LabelVector.findOrThrow val
  rw [h.2.2.2]
  by_cases hl : l ∈ ls
  · rw [if_pos hl, if_pos hl]
    exact lab_get h f _ hf (idx_lt_cols h hl)
  · rw [if_neg hl, if_neg hl]; rfl

theorem readAll_ok {s : Storage T L} {ls : List L} {m : Matrix T} (h : Lab s ls m) {f : Nat} (hf : f < m.rows) (qs : List L) (xs : List T)
    (hq : qs.map (val ls m f) = xs.map some) : readAll (constFrame s f) qs s = .ok xs := by
  induction qs generalizing xs with
  | nil => cases xs with
    | nil => rfl
    | cons x xs => cases hq
  | cons q qs ih => cases xs with
    | nil => cases hq
    | cons x xs =>
      simp only [List.map_cons, List.cons.injEq] at hq
      rw [readAll, frameGet_ok h hf, hq.1]
      simp only [Res.ofOptionErr, Res.bind, ih xs hq.2]


/-- A storage whose channels have different labels, which can all be found: every storage that starts empty and whose channels come from
`find_or_add_channel` or `frame`s is one. -/
def Good (s : Storage T L) : Prop := ∃ ls m, Lab s ls m

theorem good_make (ldflt : L) (v : T) : Good (Storage.make ldflt 0 0 v) := ⟨_, _, lab_empty ldflt v⟩

theorem good_addFrame {s : Storage T L} (h : Good s) (v : T) : Good (s.addFrame v) := by
  obtain ⟨ls, m, h⟩ := h; exact ⟨ls, _, lab_addFrame h v⟩

theorem good_record [DecidableEq T] (ldflt : L) (sent d : T) (ws : List (L × T)) (hv : ∀ w ∈ ws, w.2 ≠ sent) :
    ∃ s, record ldflt sent (Storage.make ldflt 0 0 d) ws = .ok s ∧ Good s := by
  obtain ⟨s, m, e, h, hs⟩ := record_gen ldflt sent ws (Storage.make ldflt 0 0 d) [] ⟨0, 0, fun _ _ => d⟩ [] (lab_empty ldflt d)
    ⟨rfl, fun k l hk => absurd hk (Nat.not_lt_zero _), fun f hf => absurd hf (by simp), fun f hf => absurd hf (by simp), fun h => absurd rfl h⟩ hv
  exact ⟨s, e, _, _, h⟩

/-- Writing one value by label: it is what is read; other labels of this frame and all labels of other frames keep their values; a new
channel has the default value in the other frames. -/
theorem C90_frame_set (ldflt : L) (dflt : T) {s : Storage T L} (h : Good s) {f : Nat} (hf : f < s.frames) (l : L) (v : T) :
    ∃ s', frameSet ldflt dflt s f l v = .ok s' ∧ Good s' ∧ s'.frames = s.frames ∧
      frameGet s' (constFrame s' f) l = .ok v ∧
      (∀ f' l', f' < s.frames → l' ≠ l → frameGet s' (constFrame s' f') l' = frameGet s (constFrame s f') l') ∧
      (∀ f', f' < s.frames → f' ≠ f → frameGet s' (constFrame s' f') l =
        match frameGet s (constFrame s f') l with | .ok x => .ok x | _ => .ok dflt) := by
  obtain ⟨ls, m, h⟩ := h
  have hr := h.1.1
  obtain ⟨s', m', e, h', hr', hv⟩ := frameSet_ok ldflt dflt h (f := f) (by omega) l v
  have hrr : s'.frames = s.frames := by rw [h'.1.1, hr', hr]
  refine ⟨s', e, ⟨_, _, h'⟩, hrr, ?_, ?_, ?_⟩
  · rw [frameGet_ok h' (by omega), hv f l (by omega)]; simp [Res.ofOptionErr]
  · intro f' l' hf' hl
    rw [frameGet_ok h' (by omega), frameGet_ok h (by omega), hv f' l' (by omega), if_neg hl]
  · intro f' hf' hne
    rw [frameGet_ok h' (by omega), frameGet_ok h (by omega), hv f' l (by omega), if_pos rfl, if_neg hne]
    cases val ls m f' l <;> rfl

/-- Reading a label that no channel has throws. -/
theorem C90_frame_missing {s : Storage T L} (f : ConstFrame) (l : L) (hl : s.labels.idx l = none) : frameGet s f l = .err := by
  unfold frameGet LabelVector.findOrThrow; rw [hl]; rfl

theorem suffix_inj {a b x y : String} (hl : x.length = y.length) (e : a ++ x = b ++ y) : a = b ∧ x = y := by
  have := congrArg String.toList e
  rw [String.toList_append, String.toList_append] at this
  obtain ⟨h1, h2⟩ := List.append_inj' this (by rw [String.length_toList, String.length_toList]; exact hl)
  exact ⟨String.toList_injective h1, String.toList_injective h2⟩

theorem vecLabels_inj {a b l : String} (h1 : l ∈ vecLabels a ∨ l ∈ quatLabels a) (h2 : l ∈ vecLabels b ∨ l ∈ quatLabels b) : a = b := by
  simp only [vecLabels, quatLabels, List.mem_cons, List.not_mem_nil, or_false] at h1 h2
  rcases h1 with (rfl | rfl | rfl) | (rfl | rfl | rfl | rfl) <;>
  rcases h2 with (h | h | h) | (h | h | h | h) <;> exact (suffix_inj (by decide) h).1

theorem sfx_ne (a x y : String) (h : x ≠ y) (hl : x.length = y.length) : a ++ x ≠ a ++ y := fun e => h (suffix_inj hl e).2

theorem last_none {cs : List (L × T)} {l : L} (hl : l ∉ cs.map Prod.fst) : Spec.last l cs = none := by
  induction cs with
  | nil => rfl
  | cons c cs ih =>
    simp only [List.map_cons, List.mem_cons, not_or] at hl
    rw [Spec.last, ih hl.2, if_neg (Ne.symm hl.1)]; rfl

theorem frameGet_writeAll {s s' : Storage T L} {ls ls' : List L} {m m' : Matrix T} (h : Lab s ls m) (h' : Lab s' ls' m') {f : Nat}
    (hf : f < m.rows) (hr : m'.rows = m.rows) {cs : List (L × T)} {l : L} (hl : l ∉ cs.map Prod.fst)
    (hv : val ls' m' f l = (Spec.last l cs).orElse fun _ => val ls m f l) :
    frameGet s' (constFrame s' f) l = frameGet s (constFrame s f) l := by
  have := last_none hl
  rw [frameGet_ok h' (by omega), frameGet_ok h hf, hv, this]; rfl

/-- **C90.** A vector that is written to a frame is the vector that is read from it, and everything with other labels is unchanged. -/
theorem C90_vec (dflt : T) {s : Storage T String} (h : Good s) {f : Nat} (hf : f < s.frames) (str : String) (x y z : T) :
    ∃ s', writeVec dflt s f str x y z = .ok s' ∧ Good s' ∧ s'.frames = s.frames ∧
      readVec s' (constFrame s' f) str = .ok [x, y, z] ∧
      ∀ l, l ∉ vecLabels str → frameGet s' (constFrame s' f) l = frameGet s (constFrame s f) l := by
  obtain ⟨ls, m, h⟩ := h
  have hr := h.1.1
  obtain ⟨s', ls', m', e, h', hr', _, hv⟩ := writeAll_ok "" dflt f ((vecLabels str).zip [x, y, z]) h (by omega)
  refine ⟨s', e, ⟨_, _, h'⟩, by rw [h'.1.1, hr', hr], ?_, ?_⟩
  · apply readAll_ok h' (by omega)
    have n1 := sfx_ne str ".x" ".y" (by decide) rfl
    have n2 := sfx_ne str ".x" ".z" (by decide) rfl
    have n3 := sfx_ne str ".y" ".z" (by decide) rfl
    simp [vecLabels, hv, Spec.last, n1, n2, n3, n1.symm, n2.symm, n3.symm]
  · intro l hl
    exact frameGet_writeAll h h' (by omega) hr' (cs := (vecLabels str).zip [x, y, z]) (by simpa [vecLabels] using hl) (hv l)

/-- The same for a quaternion. -/
theorem C90_quat (dflt : T) {s : Storage T String} (h : Good s) {f : Nat} (hf : f < s.frames) (str : String) (w x y z : T) :
    ∃ s', writeQuat dflt s f str w x y z = .ok s' ∧ Good s' ∧ s'.frames = s.frames ∧
      readQuat s' (constFrame s' f) str = .ok [w, x, y, z] ∧
      ∀ l, l ∉ quatLabels str → frameGet s' (constFrame s' f) l = frameGet s (constFrame s f) l := by
  obtain ⟨ls, m, h⟩ := h
  have hr := h.1.1
  obtain ⟨s', ls', m', e, h', hr', _, hv⟩ := writeAll_ok "" dflt f ((quatLabels str).zip [w, x, y, z]) h (by omega)
  refine ⟨s', e, ⟨_, _, h'⟩, by rw [h'.1.1, hr', hr], ?_, ?_⟩
  · apply readAll_ok h' (by omega)
    have n1 := sfx_ne str ".x" ".y" (by decide) rfl
    have n2 := sfx_ne str ".x" ".z" (by decide) rfl
    have n3 := sfx_ne str ".y" ".z" (by decide) rfl
    have n4 := sfx_ne str ".w" ".x" (by decide) rfl
    have n5 := sfx_ne str ".w" ".y" (by decide) rfl
    have n6 := sfx_ne str ".w" ".z" (by decide) rfl
    simp [quatLabels, hv, Spec.last, n1, n2, n3, n1.symm, n2.symm, n3.symm, n4, n5, n6, n4.symm, n5.symm, n6.symm]
  · intro l hl
    exact frameGet_writeAll h h' (by omega) hr' (cs := (quatLabels str).zip [w, x, y, z]) (by simpa [quatLabels] using hl) (hv l)

theorem readAll_congr {s s' : Storage T L} {f f' : ConstFrame} (qs : List L) (h : ∀ l ∈ qs, frameGet s' f' l = frameGet s f l) :
    readAll f' qs s' = readAll f qs s := by
  induction qs with
  | nil => rfl
  | cons q qs ih => rw [readAll, readAll, h q (by simp), ih (fun l hl => h l (by simp [hl]))]

/-- Vectors and quaternions with different names do not touch each other. -/
theorem C90_names (dflt : T) {s : Storage T String} (h : Good s) {f : Nat} (hf : f < s.frames) (a b : String) (hab : a ≠ b) (x y z w : T) :
    (∃ s', writeVec dflt s f a x y z = .ok s' ∧ readVec s' (constFrame s' f) b = readVec s (constFrame s f) b ∧
      readQuat s' (constFrame s' f) b = readQuat s (constFrame s f) b) ∧
    (∃ s', writeQuat dflt s f a w x y z = .ok s' ∧ readVec s' (constFrame s' f) b = readVec s (constFrame s f) b ∧
      readQuat s' (constFrame s' f) b = readQuat s (constFrame s f) b) := by
  constructor
  · obtain ⟨s', e, _, _, _, ho⟩ := C90_vec dflt h hf a x y z
    exact ⟨s', e, readAll_congr _ fun l hl => ho l fun hc => hab (vecLabels_inj (Or.inl hc) (Or.inl hl)),
      readAll_congr _ fun l hl => ho l fun hc => hab (vecLabels_inj (Or.inl hc) (Or.inr hl))⟩
  · obtain ⟨s', e, _, _, _, ho⟩ := C90_quat dflt h hf a w x y z
    exact ⟨s', e, readAll_congr _ fun l hl => ho l fun hc => hab (vecLabels_inj (Or.inr hc) (Or.inl hl)),
      readAll_congr _ fun l hl => ho l fun hc => hab (vecLabels_inj (Or.inr hc) (Or.inr hl))⟩

/-- **C90 is violated by a vector and a quaternion with the same name**: the vector that is read is a part of the quaternion. -/
theorem C90_shared_violated (dflt : T) {s : Storage T String} (h : Good s) {f : Nat} (hf : f < s.frames) (str : String) (x y z a b c d : T) :
    ∃ s1 s2, writeVec dflt s f str x y z = .ok s1 ∧ writeQuat dflt s1 f str a b c d = .ok s2 ∧
      readVec s2 (constFrame s2 f) str = .ok [b, c, d] := by
  obtain ⟨s1, e1, h1, f1, _⟩ := C90_vec dflt h hf str x y z
  obtain ⟨s2, e2, h2, f2, r2, _⟩ := C90_quat dflt h1 (by omega : f < s1.frames) str a b c d
  refine ⟨s1, s2, e1, e2, ?_⟩
  have : readQuat s2 (constFrame s2 f) str = (frameGet s2 (constFrame s2 f) (str ++ ".w")).bind fun x =>
    (readVec s2 (constFrame s2 f) str).bind fun xs => .ok (x :: xs) := rfl
  rw [this] at r2
  cases hw : frameGet s2 (constFrame s2 f) (str ++ ".w") with
  | ok u =>
    rw [hw] at r2
    cases hv : readVec s2 (constFrame s2 f) str with
    | ok us => rw [hv] at r2; simp only [Res.bind, Res.ok.injEq, List.cons.injEq] at r2; rw [r2.2]
    | err => rw [hv] at r2; cases r2
    | ub => rw [hv] at r2; cases r2
  | err => rw [hw] at r2; cases r2
  | ub => rw [hw] at r2; cases r2

/-- **C90 is violated by constant frames that are kept**: after a channel was added, the frame shows a value of another frame. -/
theorem C90_stale_violated : let s : Storage Int String := ⟨2, ⟨["a"], fun l => if l = "a" then some 0 else none⟩, [10, 20]⟩
    frameGet s (constFrame s 1) "a" = .ok 20 ∧
    ∃ s', frameSet "" 0 s 0 "b" 5 = .ok s' ∧ frameGet s' (constFrame s' 1) "a" = .ok 20 ∧ frameGet s' (constFrame s 1) "a" = .ok 5 := by
  refine ⟨by decide, ⟨2, ⟨["a", "b"], LabelVector.put (fun l => if l = "a" then some 0 else none) "b" 1⟩, [10, 5, 20, 0]⟩, ?_, by decide, by decide⟩
  rfl

/-- Non-vacuity: a storage with two frames. -/
example : ∃ s : Storage Int String, Good s ∧ 1 < s.frames :=
  ⟨_, good_addFrame (good_addFrame (good_make "" 0) 0) 0, by decide⟩


/-! ## Means and covariances -/
section
open Finset
variable {K : Type} [Field K]

namespace Spec
/-- The mean of a channel. -/
def mean (m : Matrix K) (c : Nat) : K := (∑ r ∈ range m.rows, m.cell r c) / m.rows

/-- The mean of the products of the deviations from the mean. -/
def cov (m : Matrix K) (a b : Nat) : K := (∑ r ∈ range m.rows, (m.cell r a - mean m a) * (m.cell r b - mean m b)) / m.rows
end Spec

theorem rel_get {s : Storage T L} {m : Matrix T} (h : Storage.Rel s m) {f c : Nat} (hf : f < m.rows) (hc : c < m.cols) :
    s.get f c = .ok (m.cell f c) := by
  unfold Storage.get; apply Vec.get_ok; rw [h.2.1]; exact h.2.2.2 f c hf hc

theorem sums_ok {s : Storage K L} {m : Matrix K} (h : Storage.Rel s m) :
    sums s = .ok ((List.range m.cols).map fun c => ∑ r ∈ range m.rows, m.cell r c) := by
  have := loopUp_inv (f := fun row (l : List K) =>
      loopUp (fun col (l : List K) => (s.get row col).bind fun x => (Vec.get l col).bind fun y => Vec.set l col (y + x)) 0 s.channels l)
    (fun k l => l = (List.range m.cols).map fun c => ∑ r ∈ range k, m.cell r c) s.frames 0 (List.replicate s.channels 0) ?_ ?_
  · obtain ⟨l, e, hl⟩ := this
    rw [sums, e, hl, Nat.zero_add, h.1]
  · rw [h.2.1]; apply List.ext_getElem <;> simp
  · intro k l _ hk hl
    have := loopUp_inv (f := fun col (l : List K) => (s.get k col).bind fun x => (Vec.get l col).bind fun y => Vec.set l col (y + x))
      (fun j l => l = (List.range m.cols).map fun c => if c < j then ∑ r ∈ range (k + 1), m.cell r c else ∑ r ∈ range k, m.cell r c)
      s.channels 0 l ?_ ?_
    · obtain ⟨l', e, hl'⟩ := this
      refine ⟨l', e, ?_⟩
      rw [hl']
      apply List.map_congr_left
      intro c hc
      rw [if_pos (by rw [Nat.zero_add, h.2.1]; simpa using hc)]
    · rw [hl]; simp
    · intro j l' _ hj hl'
      have hk' : k < m.rows := by rw [← h.1]; omega
      have hj' : j < m.cols := by rw [← h.2.1]; omega
      refine ⟨_, ?_, rfl⟩
      rw [rel_get h hk' hj']
      have hg : Vec.get l' j = .ok (∑ r ∈ range k, m.cell r j) := by
        rw [hl']; apply Vec.get_ok; simp [hj']
      simp only [Res.bind, hg]
      rw [Vec.set_ok (by rw [hl']; simpa using hj'), hl']
      congr 1
      apply List.ext_getElem
      · simp
      · intro i h1 h2
        have hi : i < m.cols := by simpa using h2
        rw [List.getElem_set]
        simp only [List.getElem_map, List.getElem_range]
        by_cases e : j = i
        · subst e; rw [if_pos rfl, if_pos (by omega), sum_range_succ]
        · rw [if_neg e]
          by_cases e2 : i < j
          · rw [if_pos e2, if_pos (by omega)]
          · rw [if_neg e2, if_neg (by omega)]

variable [DecidableEq K]

/-- **C90.** The means of the channels of a storage that has frames. -/
theorem C90_means [CharZero K] {s : Storage K L} {m : Matrix K} (h : Storage.Rel s m) (hr : m.rows ≠ 0) :
    means s = .ok ((List.range m.cols).map fun c => some (Spec.mean m c)) := by
  have : (s.frames : K) ≠ 0 := by rw [h.1]; exact_mod_cast hr
  simp only [means, sums_ok h, Res.bind, if_neg this, List.map_map]
  rw [h.1]; rfl

/-- Without frames, no mean is a number. -/
theorem C90_means_empty {s : Storage K L} {m : Matrix K} (h : Storage.Rel s m) (hr : m.rows = 0) :
    means s = .ok (List.replicate m.cols none) := by
  have : (s.frames : K) = 0 := by rw [h.1, hr]; simp
  simp only [means, sums_ok h, Res.bind, if_pos this, List.map_map]
  congr 1
  apply List.ext_getElem <;> simp

theorem covSum_ok {s : Storage K L} {m : Matrix K} (h : Storage.Rel s m) {a b : Nat} (ha : a < m.cols) (hb : b < m.cols) (x y : K) :
    covSum s a b x y = .ok (∑ r ∈ range m.rows, (m.cell r a - x) * (m.cell r b - y)) := by
  have := loopUp_inv (f := fun i (v : K) => (s.get i a).bind fun p => (s.get i b).bind fun q => .ok (v + (p - x) * (q - y)))
    (fun k v => v = ∑ r ∈ range k, (m.cell r a - x) * (m.cell r b - y)) s.frames 0 0 (by simp) ?_
  · obtain ⟨v, e, hv⟩ := this
    rw [covSum, e, hv, Nat.zero_add, h.1]
  · intro k v _ hk hv
    have hk' : k < m.rows := by rw [← h.1]; omega
    refine ⟨_, ?_, rfl⟩
    rw [rel_get h hk' ha, rel_get h hk' hb, hv, sum_range_succ]; rfl

theorem mapM_ok {α β : Type} (f : α → Res β) (g : α → β) (l : List α) (h : ∀ a ∈ l, f a = .ok (g a)) : l.mapM f = .ok (l.map g) := by
  induction l with
  | nil => rfl
  | cons a l ih => rw [List.mapM_cons, h a (by simp), ih (fun b hb => h b (by simp [hb]))]; rfl

/-- **C90.** The covariances of the channels of a storage that has frames. -/
theorem C90_covariance [CharZero K] {s : Storage K L} {m : Matrix K} (h : Storage.Rel s m) (hr : m.rows ≠ 0) :
    covariance s = .ok ((List.range m.cols).map fun a => (List.range m.cols).map fun b => some (Spec.cov m a b)) := by
  have hn : (s.frames : K) ≠ 0 := by rw [h.1]; exact_mod_cast hr
  unfold covariance
  rw [C90_means h hr, Res.bind, h.2.1]
  refine mapM_ok _ _ _ fun a ha => mapM_ok _ _ _ fun b hb => ?_
  have ha : a < m.cols := by simpa using ha
  have hb : b < m.cols := by simpa using hb
  have g : ∀ c, c < m.cols → Vec.get ((List.range m.cols).map fun c => some (Spec.mean m c)) c = .ok (some (Spec.mean m c)) := by
    intro c hc; apply Vec.get_ok; simp [hc]
  rw [g a ha, g b hb]
  simp only [Res.bind, covSum_ok h ha hb, if_neg hn]
  rw [h.1]; rfl

omit [DecidableEq K] in
/-- Covariance is symmetric. -/
theorem C90_cov_symm (m : Matrix K) (a b : Nat) : Spec.cov m a b = Spec.cov m b a := by
  unfold Spec.cov; congr 1; exact sum_congr rfl fun r _ => mul_comm _ _

omit [DecidableEq K] in
/-- Covariance is the mean of the products minus the product of the means. -/
theorem C90_cov_products [CharZero K] (m : Matrix K) (hr : m.rows ≠ 0) (a b : Nat) :
    Spec.cov m a b = (∑ r ∈ range m.rows, m.cell r a * m.cell r b) / m.rows - Spec.mean m a * Spec.mean m b := by
  have hn : (m.rows : K) ≠ 0 := by exact_mod_cast hr
  have hs : ∀ c, ∑ r ∈ range m.rows, m.cell r c = Spec.mean m c * m.rows := fun c => by unfold Spec.mean; field_simp
  have key : ∑ r ∈ range m.rows, (m.cell r a - Spec.mean m a) * (m.cell r b - Spec.mean m b) =
      (∑ r ∈ range m.rows, m.cell r a * m.cell r b) - Spec.mean m a * Spec.mean m b * m.rows := by
    have : ∀ r, (m.cell r a - Spec.mean m a) * (m.cell r b - Spec.mean m b) =
        m.cell r a * m.cell r b - m.cell r a * Spec.mean m b - Spec.mean m a * m.cell r b + Spec.mean m a * Spec.mean m b := fun r => by ring
    simp only [this, sum_add_distrib, sum_sub_distrib, ← sum_mul, ← mul_sum, hs, sum_const, card_range, nsmul_eq_mul]
    ring
  rw [Spec.cov, key]; field_simp

omit [DecidableEq K] in
/-- Adding a constant to every channel moves the means and does not change the covariances. -/
theorem C90_cov_shift [CharZero K] (m : Matrix K) (hr : m.rows ≠ 0) (t : Nat → K) (a b : Nat) :
    Spec.mean { m with cell := fun r c => m.cell r c + t c } a = Spec.mean m a + t a ∧
    Spec.cov { m with cell := fun r c => m.cell r c + t c } a b = Spec.cov m a b := by
  have hn : (m.rows : K) ≠ 0 := by exact_mod_cast hr
  have hm : ∀ c, Spec.mean { m with cell := fun r c => m.cell r c + t c } c = Spec.mean m c + t c := fun c => by
    unfold Spec.mean
    simp only [sum_add_distrib, sum_const, card_range, nsmul_eq_mul]
    field_simp
  refine ⟨hm a, ?_⟩
  unfold Spec.cov
  congr 1
  refine sum_congr rfl fun r _ => ?_
  rw [hm, hm]; ring

omit [DecidableEq K] in
/-- The covariances form a positive semi-definite matrix; in particular, variances are not negative. -/
theorem C90_cov_psd [LinearOrder K] [IsStrictOrderedRing K] (m : Matrix K) (n : Nat) (x : Nat → K) :
    0 ≤ ∑ a ∈ range n, ∑ b ∈ range n, x a * x b * Spec.cov m a b := by
  have : ∑ a ∈ range n, ∑ b ∈ range n, x a * x b * Spec.cov m a b =
      (∑ r ∈ range m.rows, (∑ a ∈ range n, x a * (m.cell r a - Spec.mean m a)) ^ 2) / m.rows := by
    have hsq : ∀ r, (∑ a ∈ range n, x a * (m.cell r a - Spec.mean m a)) ^ 2 =
        ∑ a ∈ range n, ∑ b ∈ range n, x a * (m.cell r a - Spec.mean m a) * (x b * (m.cell r b - Spec.mean m b)) := fun r => by
      rw [sq, sum_mul_sum]
    simp only [hsq]
    simp only [Spec.cov, sum_div, mul_sum]
    rw [show (∑ a ∈ range n, ∑ b ∈ range n, ∑ i ∈ range m.rows,
        x a * x b * ((m.cell i a - Spec.mean m a) * (m.cell i b - Spec.mean m b) / (m.rows : K))) =
        ∑ i ∈ range m.rows, ∑ a ∈ range n, ∑ b ∈ range n,
        x a * x b * ((m.cell i a - Spec.mean m a) * (m.cell i b - Spec.mean m b) / (m.rows : K)) from ?_]
    · refine sum_congr rfl fun r _ => sum_congr rfl fun a _ => sum_congr rfl fun b _ => by ring
    · rw [sum_comm]
      rw [show (∑ i ∈ range m.rows, ∑ a ∈ range n, ∑ b ∈ range n,
        x a * x b * ((m.cell i a - Spec.mean m a) * (m.cell i b - Spec.mean m b) / (m.rows : K))) =
        ∑ a ∈ range n, ∑ i ∈ range m.rows, ∑ b ∈ range n,
        x a * x b * ((m.cell i a - Spec.mean m a) * (m.cell i b - Spec.mean m b) / (m.rows : K)) from sum_comm, sum_comm]
      refine sum_congr rfl fun a _ => sum_comm
  rw [this]
  exact div_nonneg (sum_nonneg fun r _ => sq_nonneg _) (Nat.cast_nonneg _)

/-- Non-vacuity: two channels with two frames. -/
example : means (⟨2, ⟨["a", "b"], fun _ => none⟩, [1, 2, 3, 6]⟩ : Storage Rat String) = .ok [some 2, some 4] ∧
    covariance (⟨2, ⟨["a", "b"], fun _ => none⟩, [1, 2, 3, 6]⟩ : Storage Rat String) = .ok [[some 1, some 2], [some 2, some 4]] := by
  decide +kernel

end

end Xo.Recorder
