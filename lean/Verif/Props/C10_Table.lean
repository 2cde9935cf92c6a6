import Verif.Lemmas.Storage
import Verif.Props.C07_LabelVector

/-!
C10: `table` cells survive adding rows and columns. Adding rows and columns is correct for every history; the
public `resize` with more rows than before is undefined behaviour (last theorem).
-/
namespace Xo
open Spec
variable {T L : Type} [DecidableEq L]

namespace Spec
/-- A labelled matrix: a blank slot (`none`) is a row or column without a label. -/
structure LTable (T L : Type) where
  m : Matrix T
  rl : List (Option L)
  cl : List (Option L)

inductive TableOp (T L : Type) where
  | addRow (l : L) (v : T)
  | addColumn (l : L) (v : T)
  | getOrAddRow (l : L) (v : T)
  | getOrAddColumn (l : L) (v : T)
  | write (r c : Nat) (v : T)

def LTable.addRow (s : LTable T L) (l : L) (v : T) : LTable T L :=
  ⟨s.m.grow (s.m.rows + 1) s.m.cols v, s.rl ++ [some l], s.cl⟩

def LTable.addCol (s : LTable T L) (l : L) (v : T) : LTable T L :=
  ⟨s.m.grow s.m.rows (s.m.cols + 1) v, s.rl, s.cl ++ [some l]⟩

/-- What a call does; `none` means that it has to fail. -/
def tableStep (s : LTable T L) : TableOp T L → Option (LTable T L)
  | .addRow l v => if some l ∈ s.rl then none else some (s.addRow l v)
  | .addColumn l v => if some l ∈ s.cl then none else some (s.addCol l v)
  | .getOrAddRow l v => if some l ∈ s.rl then some s else some (s.addRow l v)
  | .getOrAddColumn l v => if some l ∈ s.cl then some s else some (s.addCol l v)
  | .write r c v => if r < s.m.rows ∧ c < s.m.cols then some { s with m := s.m.write r c v } else none

/-- `s'` has all of `s`, cells and labels, possibly followed by unlabelled columns. -/
def LTable.Keeps (s s' : LTable T L) : Prop :=
  s'.m.rows = s.m.rows ∧ s'.rl = s.rl ∧
  (∃ k, s'.cl = s.cl ++ List.replicate k none ∧ s'.m.cols = s.m.cols + k) ∧ ∀ r c, r < s.m.rows → c < s.m.cols → s'.m.cell r c = s.m.cell r c

/-- A history with its outcomes. -/
inductive TableHist : LTable T L → List (TableOp T L) → List Bool → LTable T L → Prop where
  | nil (s) : TableHist s [] [] s
  | ok {s op s1 ops outs t} : tableStep s op = some s1 → TableHist s1 ops outs t →
      TableHist s (op :: ops) (true :: outs) t
  | threw {s op s1 ops outs t} : tableStep s op = none → s.Keeps s1 → TableHist s1 ops outs t →
      TableHist s (op :: ops) (false :: outs) t
end Spec

namespace Table

theorem moveCells_ok {data : List T} {R C : Nat} {cell : Nat → Nat → T} (h : Holds data R C cell) {C' : Nat}
    (hC : C ≤ C') (v dflt : T) :
    ∃ new, moveCells R C R C' v (Vec.resize data (R * C') dflt) = .ok new ∧
      Holds new R C' (fun r c => if r < R ∧ c < C then cell r c else v) := by
  have key := loopDown_inv (f := fun ri (data : List T) =>
    loopDown (fun ci data =>
      (if ri < R ∧ ci < C then Vec.get data (C * ri + ci) else .ok v).bind fun x =>
        Vec.set data (C' * ri + ci) x) C' data)
    (fun ri d => d.length = R * C' ∧
      (∀ r c, ri ≤ r → r < R → c < C' → d[r * C' + c]? = some (if c < C then cell r c else v)) ∧
      (∀ r c, r < ri → c < C → d[r * C + c]? = some (cell r c)))
    R (Vec.resize data (R * C') dflt) ?_ ?_
  · obtain ⟨s, e, p1, p2, p3⟩ := key
    refine ⟨s, e, p1, ?_⟩
    intro r c hr hc
    have := p2 r c (Nat.zero_le _) hr hc
    rw [this]
    simp [hr]
  · refine ⟨Vec.length_resize _ _ _, fun r c h1 h2 _ => absurd h2 (by omega), ?_⟩
    intro r c hr hc
    have h1 : r * C + c < R * C := idx_lt hr hc
    have h2 : R * C ≤ R * C' := Nat.mul_le_mul_left _ hC
    rw [Vec.getElem?_resize _ _ _ _ (by omega)]
    have h3 : r * C + c < data.length := by rw [h.1]; exact h1
    rw [dif_pos h3, ← h.2 r c hr hc, List.getElem?_eq_getElem h3]
  · intro ri d hri ⟨q1, q2, q3⟩
    have inner := loopDown_inv (f := fun ci (data : List T) =>
      (if ri < R ∧ ci < C then Vec.get data (C * ri + ci) else .ok v).bind fun x =>
        Vec.set data (C' * ri + ci) x)
      (fun ci d => d.length = R * C' ∧
        (∀ r c, ri + 1 ≤ r → r < R → c < C' → d[r * C' + c]? = some (if c < C then cell r c else v)) ∧
        (∀ c, ci ≤ c → c < C' → d[ri * C' + c]? = some (if c < C then cell ri c else v)) ∧
        (∀ r c, r < ri → c < C → d[r * C + c]? = some (cell r c)) ∧
        (∀ c, c < ci → c < C → d[ri * C + c]? = some (cell ri c)))
      C' d ?_ ?_
    · obtain ⟨s, e, p1, p2, p3, p4, _⟩ := inner
      refine ⟨s, e, p1, ?_, p4⟩
      intro r c hr1 hr2 hc
      rcases Nat.eq_or_lt_of_le hr1 with rfl | hlt
      · exact p3 c (Nat.zero_le _) hc
      · exact p2 r c hlt hr2 hc
    · refine ⟨q1, q2, fun c h1 h2 => absurd h2 (by omega), fun r c hr hc => q3 r c (by omega) hc,
        fun c _ hc => q3 ri c (by omega) hc⟩
    · intro ci d hci ⟨p1, p2, p3, p4, p5⟩
      have hread : (if ri < R ∧ ci < C then Vec.get d (C * ri + ci) else .ok v) =
          .ok (if ci < C then cell ri ci else v) := by
        by_cases hc : ci < C
        · rw [if_pos ⟨hri, hc⟩, if_pos hc]
          apply Vec.get_ok
          rw [Nat.mul_comm C ri]
          exact p5 ci (by omega) hc
        · rw [if_neg (by omega), if_neg hc]
      have hlt : C' * ri + ci < d.length := by rw [p1, Nat.mul_comm C' ri]; exact idx_lt hri hci
      refine ⟨d.set (C' * ri + ci) (if ci < C then cell ri ci else v), ?_, by simp [p1], ?_, ?_, ?_, ?_⟩
      · rw [hread]; simp only [Res.bind]; exact Vec.set_ok hlt
      · intro r c hr1 hr2 hc
        have : C' * ri + ci ≠ r * C' + c := by
          rw [Nat.mul_comm C' ri]; intro hh; have := idx_inj hci hc hh; omega
        rw [List.getElem?_set_ne this]; exact p2 r c hr1 hr2 hc
      · intro c hc1 hc2
        rcases Nat.eq_or_lt_of_le hc1 with rfl | hgt
        · rw [Nat.mul_comm C' ri] at *
          rw [List.getElem?_set_self hlt]
        · have : C' * ri + ci ≠ ri * C' + c := by rw [Nat.mul_comm C' ri]; omega
          rw [List.getElem?_set_ne this]; exact p3 c hgt hc2
      · intro r c hr hc
        have h1 : r * C + c < ri * C := idx_lt hr hc
        have h2 : ri * C ≤ ri * C' := Nat.mul_le_mul_left _ hC
        have : C' * ri + ci ≠ r * C + c := by rw [Nat.mul_comm C' ri]; omega
        rw [List.getElem?_set_ne this]; exact p4 r c hr hc
      · intro c hc1 hc2
        have h2 : ri * C ≤ ri * C' := Nat.mul_le_mul_left _ hC
        have : C' * ri + ci ≠ ri * C + c := by rw [Nat.mul_comm C' ri]; omega
        rw [List.getElem?_set_ne this]; exact p5 c (by omega) hc2

/-- The table holds this labelled matrix, and label lookup is exact. -/
structure Rel (ldflt : L) (t : Table T L) (s : LTable T L) : Prop where
  rl : LabelVector.Rel ldflt t.rowLabels s.rl
  cl : LabelVector.Rel ldflt t.colLabels s.cl
  rlen : s.rl.length = s.m.rows
  clen : s.cl.length = s.m.cols
  cells : Holds t.data s.m.rows s.m.cols s.m.cell

theorem Rel.rows_eq {ldflt : L} {t : Table T L} {s : LTable T L} (h : Rel ldflt t s) : t.rows = s.m.rows := by
  unfold Table.rows LabelVector.size; rw [h.rl.1]; simp [h.rlen]

theorem Rel.cols_eq {ldflt : L} {t : Table T L} {s : LTable T L} (h : Rel ldflt t s) : t.cols = s.m.cols := by
  unfold Table.cols LabelVector.size; rw [h.cl.1]; simp [h.clen]

/-- One call on the model. -/
def step (ldflt : L) (dflt : T) (t : Table T L) : TableOp T L → Res Unit × Table T L
  | .addRow l v => match t.addRow l v with
    | .ok r => (.ok (), r.2)
    | .err => (.err, t)
    | .ub => (.ub, t)
  | .addColumn l v => ((t.addColumn ldflt dflt l v).1.map fun _ => (), (t.addColumn ldflt dflt l v).2)
  | .getOrAddRow l v => match t.getOrAddRow l v with
    | .ok r => (.ok (), r.2)
    | .err => (.err, t)
    | .ub => (.ub, t)
  | .getOrAddColumn l v =>
    ((t.getOrAddColumn ldflt dflt l v).1.map fun _ => (), (t.getOrAddColumn ldflt dflt l v).2)
  | .write r c v => match t.write r c v with
    | .ok t' => (.ok (), t')
    | .err => (.err, t)
    | .ub => (.ub, t)

def run (ldflt : L) (dflt : T) (t : Table T L) : List (TableOp T L) → List (Res Unit) × Table T L
  | [] => ([], t)
  | op :: ops =>
    let (o, t1) := t.step ldflt dflt op
    let (os, t2) := run ldflt dflt t1 ops
    (o :: os, t2)

theorem addRow_spec {ldflt : L} {t : Table T L} {s : LTable T L} (h : Rel ldflt t s) (l : L) (v : T) :
    if some l ∈ s.rl then t.addRow l v = .err
    else ∃ t', t.addRow l v = .ok (s.m.rows, t') ∧ Rel ldflt t' (s.addRow l v) := by
  have hl := C07_step_partial ldflt t.rowLabels s.rl h.rl (.add l) trivial
  simp only [labelStep] at hl
  by_cases hm : some l ∈ s.rl
  · rw [if_pos hm]
    rw [if_pos hm] at hl
    simp only [LabelVector.step] at hl
    simp only [addRow]
    cases ha : t.rowLabels.add l with
    | ok r => rw [ha] at hl; simp [Res.bind] at hl
    | err => rfl
    | ub => rw [ha] at hl; simp [Res.bind] at hl
  · rw [if_neg hm]
    rw [if_neg hm] at hl
    obtain ⟨rl', e, hr⟩ := hl
    simp only [LabelVector.step] at e
    simp only [addRow]
    cases ha : t.rowLabels.add l with
    | err => rw [ha] at e; simp [Res.bind] at e
    | ub => rw [ha] at e; simp [Res.bind] at e
    | ok r =>
      rw [ha] at e
      simp [Res.bind] at e
      have hsz : r.2.size = s.m.rows + 1 := by
        rw [e]; unfold LabelVector.size; rw [hr.1]; simp [h.rlen]
      refine ⟨{ t with rowLabels := r.2, data := Vec.resize t.data (r.2.size * t.cols) v }, ?_, ?_⟩
      · simp [Res.bind, hsz]
      · refine ⟨by rw [e]; exact hr, h.cl, by simp [LTable.addRow, Matrix.grow, h.rlen], h.clen, ?_⟩
        simp only [hsz, h.cols_eq, LTable.addRow, Matrix.grow]
        exact resize_holds h.cells (Nat.le_succ _) (Nat.le_refl _) (Or.inr rfl) v

theorem resize_cols {ldflt : L} (dflt : T) {t : Table T L} {s : LTable T L} (h : Rel ldflt t s) {C' : Nat}
    (hC : s.m.cols ≤ C') (v : T) :
    ∃ t', t.resize ldflt dflt t.rows C' v = .ok t' ∧
      Rel ldflt t' ⟨s.m.grow s.m.rows C' v, s.rl, s.cl ++ List.replicate (C' - s.m.cols) none⟩ := by
  obtain ⟨new, e, hn⟩ := moveCells_ok h.cells hC v dflt
  have hc := C07_step_partial ldflt t.colLabels s.cl h.cl (.resize C') trivial
  simp only [labelStep, h.clen] at hc
  rw [if_neg (by omega)] at hc
  obtain ⟨cl', ec, hcr⟩ := hc
  have hr := C07_step_partial ldflt t.rowLabels s.rl h.rl (.resize s.m.rows) trivial
  simp only [labelStep, h.rlen] at hr
  rw [if_neg (by omega)] at hr
  obtain ⟨rl', er, hrr⟩ := hr
  refine ⟨⟨rl', cl', new⟩, ?_, ?_⟩
  · unfold resize
    rw [if_neg (by rw [h.cols_eq]; omega), h.rows_eq, h.cols_eq, e]
    simp only [LabelVector.step] at ec er
    simp [Res.bind, ec, er]
  · refine ⟨by simpa using hrr, hcr, by simp [Matrix.grow, h.rlen], by simp [Matrix.grow, h.clen]; omega, hn⟩

theorem addColumn_spec {ldflt : L} (dflt : T) {t : Table T L} {s : LTable T L} (h : Rel ldflt t s) (l : L) (v : T) :
    if some l ∈ s.cl then
      (t.addColumn ldflt dflt l v).1 = .err ∧
      ∃ s', Rel ldflt (t.addColumn ldflt dflt l v).2 s' ∧ s.Keeps s'
    else (t.addColumn ldflt dflt l v).1 = .ok s.m.cols ∧
      Rel ldflt (t.addColumn ldflt dflt l v).2 (s.addCol l v) := by
  obtain ⟨t1, e1, r1⟩ := resize_cols dflt h (C' := s.m.cols + 1) (Nat.le_succ _) v
  have hcols1 : t1.cols = s.m.cols + 1 := by rw [r1.cols_eq]; rfl
  have e1' : t.resize ldflt dflt t.rows (t.cols + 1) v = .ok t1 := by rw [h.cols_eq]; exact e1
  have hblank : (s.cl ++ List.replicate (s.m.cols + 1 - s.m.cols) (none : Option L)) = s.cl ++ [none] := by
    rw [Nat.add_sub_cancel_left]; rfl
  have hset := C07_step_partial ldflt t1.colLabels _ r1.cl (.set s.m.cols l) (by
    intro x hx; rw [hblank, ← h.clen] at hx; simpa using hx.symm)
  simp only [LabelVector.step, hblank, labelStep, List.length_append, h.clen, List.length_singleton,
    Nat.lt_succ_self, true_and, List.mem_append, List.mem_singleton, reduceCtorEq, or_false] at hset
  have hidx : t1.cols - 1 = s.m.cols := by rw [hcols1]; rfl
  by_cases hm : some l ∈ s.cl
  · rw [if_pos hm]
    rw [if_neg (by simpa using hm)] at hset
    simp only [addColumn, e1', hidx, hset, true_and]
    refine ⟨_, r1, rfl, rfl, ⟨1, by rw [hblank]; rfl, rfl⟩, ?_⟩
    intro r c hr hc
    simp [Matrix.grow, hr, hc]
  · rw [if_neg hm]
    rw [if_pos hm] at hset
    obtain ⟨cl', e2, r2⟩ := hset
    simp only [addColumn, e1', hidx, e2, true_and]
    refine ⟨r1.rl, ?_, r1.rlen, by simp [LTable.addCol, Matrix.grow, h.clen], r1.cells⟩
    have hset' : (s.cl ++ [none]).set s.m.cols (some l) = s.cl ++ [some l] := by
      rw [← h.clen]; simp
    rw [hset'] at r2
    exact r2

end Table
open Table

/-- Every call: never undefined behaviour; it fails exactly if the specification says so; existing cells and
labels stay. -/
theorem C10_step (ldflt : L) (dflt : T) (t : Table T L) (s : LTable T L) (h : Table.Rel ldflt t s)
    (op : TableOp T L) :
    match tableStep s op with
    | some s' => (t.step ldflt dflt op).1 = .ok () ∧ Table.Rel ldflt (t.step ldflt dflt op).2 s'
    | none => (t.step ldflt dflt op).1 = .err ∧
        ∃ s', Table.Rel ldflt (t.step ldflt dflt op).2 s' ∧ s.Keeps s' := by
  have keepSelf : s.Keeps s := ⟨rfl, rfl, ⟨0, by simp⟩, fun _ _ _ _ => rfl⟩
  cases op with
  | addRow l v =>
    have := addRow_spec h l v
    by_cases hm : some l ∈ s.rl
    · rw [if_pos hm] at this
      simp only [tableStep, if_pos hm, Table.step, this, true_and]
      exact ⟨s, h, keepSelf⟩
    · rw [if_neg hm] at this
      obtain ⟨t', e, r⟩ := this
      simp only [tableStep, if_neg hm, Table.step, e, true_and]
      exact r
  | addColumn l v =>
    have := addColumn_spec dflt h l v
    by_cases hm : some l ∈ s.cl
    · rw [if_pos hm] at this
      simp only [tableStep, if_pos hm, Table.step, this.1, Res.map, true_and]
      exact this.2
    · rw [if_neg hm] at this
      simp only [tableStep, if_neg hm, Table.step, this.1, Res.map, true_and]
      exact this.2
  | getOrAddRow l v =>
    have hfind := LabelVector.find_none_iff h.rl l
    have := addRow_spec h l v
    by_cases hm : some l ∈ s.rl
    · have hn : t.rowLabels.idx l ≠ none := fun hn => hfind.1 hn hm
      obtain ⟨i, hi⟩ := Option.ne_none_iff_exists'.1 hn
      simp only [tableStep, if_pos hm, Table.step, getOrAddRow, LabelVector.find, hi, true_and]
      exact h
    · rw [if_neg hm] at this
      obtain ⟨t', e, r⟩ := this
      simp only [tableStep, if_neg hm, Table.step, getOrAddRow, LabelVector.find, hfind.2 hm, e, true_and]
      exact r
  | getOrAddColumn l v =>
    have hfind := LabelVector.find_none_iff h.cl l
    have := addColumn_spec dflt h l v
    by_cases hm : some l ∈ s.cl
    · have hn : t.colLabels.idx l ≠ none := fun hn => hfind.1 hn hm
      obtain ⟨i, hi⟩ := Option.ne_none_iff_exists'.1 hn
      simp only [tableStep, if_pos hm, Table.step, getOrAddColumn, LabelVector.find, hi, Res.map, true_and]
      exact h
    · rw [if_neg hm] at this
      simp only [tableStep, if_neg hm, Table.step, getOrAddColumn, LabelVector.find, hfind.2 hm, this.1, Res.map,
        true_and]
      exact this.2
  | write r c v =>
    by_cases hrc : r < s.m.rows ∧ c < s.m.cols
    · have hl : r * t.cols + c < t.data.length := by
        rw [h.cells.1, h.cols_eq]; exact idx_lt hrc.1 hrc.2
      have e : t.write r c v = .ok { t with data := t.data.set (r * t.cols + c) v } := by
        simp [Table.write, h.rows_eq, h.cols_eq, hrc]
        rw [← h.cols_eq, Vec.set_ok hl]; rfl
      simp only [tableStep, if_pos hrc, Table.step, e, true_and]
      refine ⟨h.rl, h.cl, h.rlen, h.clen, ?_⟩
      rw [h.cols_eq]
      exact holds_set h.cells hrc.1 hrc.2 v
    · have e : t.write r c v = .err := by
        unfold Table.write; rw [if_neg (by rw [h.rows_eq, h.cols_eq]; exact hrc)]
      simp only [tableStep, if_neg hrc, Table.step, e, true_and]
      exact ⟨s, h, keepSelf⟩

/-- **C10.** For a table of any initial size and any history of `add_row`, `add_column`, `get_or_add_*` and cell
writes, no call is undefined, the outcomes are as specified, each cell reads as in a labelled matrix that went
through the same history, and labels are looked up where they were added. -/
theorem C10_table_is_labelled_matrix (ldflt : L) (dflt : T) (rows cols : Nat) (ops : List (TableOp T L)) :
    let r := (Table.make ldflt dflt rows cols).run ldflt dflt ops
    (∀ o ∈ r.1, o ≠ .ub) ∧
    ∃ s, TableHist ⟨⟨rows, cols, fun _ _ => dflt⟩, List.replicate rows none, List.replicate cols none⟩ ops
        (r.1.map Res.isOk) s ∧
      r.2.rows = s.m.rows ∧ r.2.cols = s.m.cols ∧
      (∀ i j, r.2.get i j = if i < s.m.rows ∧ j < s.m.cols then .ok (s.m.cell i j) else .err) ∧
      (∀ l i, r.2.rowLabels.find l = some i ↔ s.rl[i]? = some (some l)) ∧
      (∀ l i, r.2.colLabels.find l = some i ↔ s.cl[i]? = some (some l)) := by
  have gen : ∀ (ops : List (TableOp T L)) (t : Table T L) (s : LTable T L), Table.Rel ldflt t s →
      (∀ o ∈ (t.run ldflt dflt ops).1, o ≠ .ub) ∧
      ∃ s', TableHist s ops ((t.run ldflt dflt ops).1.map Res.isOk) s' ∧
        Table.Rel ldflt (t.run ldflt dflt ops).2 s' := by
    intro ops
    induction ops with
    | nil => intro t s h; exact ⟨by simp [Table.run], s, .nil s, h⟩
    | cons op ops ih =>
      intro t s h
      have hs := C10_step ldflt dflt t s h op
      simp only [Table.run]
      cases hsp : tableStep s op with
      | some s1 =>
        rw [hsp] at hs
        obtain ⟨e, hr⟩ := hs
        obtain ⟨i1, s', i2, i3⟩ := ih _ _ hr
        refine ⟨?_, s', ?_, i3⟩
        · intro o ho
          rcases List.mem_cons.1 ho with rfl | ho
          · rw [e]; simp
          · exact i1 o ho
        · rw [List.map_cons, e]; exact .ok hsp i2
      | none =>
        rw [hsp] at hs
        obtain ⟨e, s1, hr, hk⟩ := hs
        obtain ⟨i1, s', i2, i3⟩ := ih _ _ hr
        refine ⟨?_, s', ?_, i3⟩
        · intro o ho
          rcases List.mem_cons.1 ho with rfl | ho
          · rw [e]; simp
          · exact i1 o ho
        · rw [List.map_cons, e]; exact .threw hsp hk i2
  have lrel : ∀ n, LabelVector.Rel ldflt (LabelVector.ofSize ldflt n) (List.replicate n none) := by
    intro n
    refine ⟨by simp [LabelVector.ofSize], ?_⟩
    intro l i; simp only [LabelVector.ofSize, List.getElem?_replicate]
    constructor
    · rintro ⟨⟩
    · intro h; split at h <;> cases h
  have h0 : Table.Rel ldflt (Table.make ldflt dflt rows cols)
      ⟨⟨rows, cols, fun _ _ => dflt⟩, List.replicate rows none, List.replicate cols none⟩ := by
    refine ⟨lrel rows, lrel cols, by simp, by simp, by simp [Table.make], ?_⟩
    intro r c hr hc
    simp only [Table.make]
    rw [List.getElem?_replicate, if_pos (idx_lt hr hc)]
  obtain ⟨h1, s, h2, h3⟩ := gen ops _ _ h0
  refine ⟨h1, s, h2, h3.rows_eq, h3.cols_eq, ?_, h3.rl.2, h3.cl.2⟩
  intro i j
  unfold Table.get
  rw [h3.rows_eq, h3.cols_eq]
  split
  · next hij => exact Vec.get_ok (h3.cells.2 i j hij.1 hij.2)
  · rfl

/-- Later additions leave an existing cell, addressed by its labels, alone. -/
theorem C10_additions_keep_cells {s s' : LTable T L} {ops : List (TableOp T L)} {outs : List Bool}
    (h : TableHist s ops outs s') (hw : ∀ op ∈ ops, ∀ r c v, op ≠ .write r c v)
    (hl : s.rl.length = s.m.rows ∧ s.cl.length = s.m.cols) (l1 l2 : L) (i j : Nat)
    (hi : s.rl[i]? = some (some l1)) (hj : s.cl[j]? = some (some l2)) :
    s'.rl[i]? = some (some l1) ∧ s'.cl[j]? = some (some l2) ∧ s'.m.cell i j = s.m.cell i j := by
  have app : ∀ {A : Type} (l ys : List A) (i : Nat) (x : A), l[i]? = some x → (l ++ ys)[i]? = some x := by
    intro A l ys i x hx
    have : i < l.length := by
      by_contra hc; rw [List.getElem?_eq_none (by omega)] at hx; cases hx
    rw [List.getElem?_append_left this]; exact hx
  have lt : ∀ {A : Type} (l : List A) (i : Nat) (x : A), l[i]? = some x → i < l.length := by
    intro A l i x hx; by_contra hc; rw [List.getElem?_eq_none (by omega)] at hx; cases hx
  induction h with
  | nil => exact ⟨hi, hj, rfl⟩
  | @ok s op s1 ops outs t hs _ ih =>
    have hir := lt _ _ _ hi
    have hjc := lt _ _ _ hj
    have hr : i < s.m.rows := by omega
    have hc : j < s.m.cols := by omega
    have key : ∀ s1 : LTable T L, tableStep s op = some s1 →
        (s1.rl.length = s1.m.rows ∧ s1.cl.length = s1.m.cols) ∧ s1.rl[i]? = some (some l1) ∧
        s1.cl[j]? = some (some l2) ∧ s1.m.cell i j = s.m.cell i j := by
      intro s1 hs
      have hrow : ∀ l v, (s.addRow l v).rl.length = (s.addRow l v).m.rows ∧
          (s.addRow l v).cl.length = (s.addRow l v).m.cols := by
        intro l v; simp [LTable.addRow, Matrix.grow, hl.1, hl.2]
      have hcol : ∀ l v, (s.addCol l v).rl.length = (s.addCol l v).m.rows ∧
          (s.addCol l v).cl.length = (s.addCol l v).m.cols := by
        intro l v; simp [LTable.addCol, Matrix.grow, hl.1, hl.2]
      cases op with
      | addRow l v =>
        simp only [tableStep] at hs; split at hs
        · cases hs
        · cases hs; exact ⟨hrow l v, app _ _ _ _ hi, hj, by simp [LTable.addRow, Matrix.grow, hr, hc]⟩
      | addColumn l v =>
        simp only [tableStep] at hs; split at hs
        · cases hs
        · cases hs; exact ⟨hcol l v, hi, app _ _ _ _ hj, by simp [LTable.addCol, Matrix.grow, hr, hc]⟩
      | getOrAddRow l v =>
        simp only [tableStep] at hs; split at hs
        · cases hs; exact ⟨hl, hi, hj, rfl⟩
        · cases hs; exact ⟨hrow l v, app _ _ _ _ hi, hj, by simp [LTable.addRow, Matrix.grow, hr, hc]⟩
      | getOrAddColumn l v =>
        simp only [tableStep] at hs; split at hs
        · cases hs; exact ⟨hl, hi, hj, rfl⟩
        · cases hs; exact ⟨hcol l v, hi, app _ _ _ _ hj, by simp [LTable.addCol, Matrix.grow, hr, hc]⟩
      | write r c v => exact absurd rfl (hw _ (by simp) r c v)
    obtain ⟨k1, k2, k3, k4⟩ := key s1 hs
    have := ih (fun op hop => hw op (by simp [hop])) k1 k2 k3
    exact ⟨this.1, this.2.1, this.2.2.trans k4⟩
  | @threw s op s1 ops outs t hs hk _ ih =>
    have hir := lt _ _ _ hi
    have hjc := lt _ _ _ hj
    obtain ⟨k1, k2, ⟨k, k3, k4⟩, k5⟩ := hk
    have := ih (fun op hop => hw op (by simp [hop])) ⟨by rw [k2, k1, hl.1], by rw [k3, k4]; simp [hl.2]⟩
      (by rw [k2]; exact hi) (by rw [k3]; exact app _ _ _ _ hj)
    exact ⟨this.1, this.2.1, this.2.2.trans (k5 i j (by omega) (by omega))⟩

/-- `resize` to more rows writes beyond the end of the buffer: undefined behaviour for every table and every
number of columns greater than zero. -/
theorem C10_resize_rows_violated (ldflt : L) (dflt : T) (t : Table T L) (rows cols : Nat) (v : T)
    (hr : t.rows < rows) (hc : t.cols ≤ cols) (h0 : 0 < cols) :
    t.resize ldflt dflt rows cols v = .ub := by
  unfold Table.resize
  rw [if_neg (by omega)]
  have : moveCells t.rows t.cols rows cols v (Vec.resize t.data (t.rows * cols) dflt) = .ub := by
    obtain ⟨n, rfl⟩ : ∃ n, rows = n + 1 := ⟨rows - 1, by omega⟩
    obtain ⟨k, rfl⟩ : ∃ k, cols = k + 1 := ⟨cols - 1, by omega⟩
    have hlt : ¬ ((k + 1) * n + k < (Vec.resize t.data (t.rows * (k + 1)) dflt).length) := by
      rw [Vec.length_resize]
      have : t.rows * (k + 1) ≤ n * (k + 1) := Nat.mul_le_mul_right _ (by omega)
      rw [Nat.mul_comm (k + 1) n]; omega
    simp only [moveCells, loopDown]
    rw [if_neg (by omega)]
    simp only [Res.bind, Vec.set, if_neg hlt]
  rw [this]; rfl

/-- A history with additions, a rejected duplicate column and a rejected write. -/
example : ((Table.make (L := String) (T := Nat) "" 0 0 0).run "" 0
    [.addRow "r" 0, .addColumn "a" 1, .addRow "s" 2, .addColumn "b" 3, .write 1 0 9, .addColumn "b" 4,
     .getOrAddColumn "a" 5, .write 7 7 7]).1.map Res.isOk =
    [true, true, true, true, true, false, true, false] := by decide

/-- `resize( 2, 1 )` on a 1 by 1 table. -/
example : (Table.make (L := String) (T := Nat) "" 0 1 1).resize "" 0 2 1 5 = .ub :=
  C10_resize_rows_violated "" 0 _ 2 1 5 (by decide) (by decide) (by decide)

end Xo
