import Verif.Model.TableText
import Verif.Props.C10_Table
import Verif.Props.C91_StorageText
import Verif.Props.C95_DataFile

/-!
C104: a table that is written to a text and read again.
-/
namespace Xo.TabText
open Xo Xo.Spec Xo.DataFile Xo.DataFile.Spec Xo.Num Xo.StoText

variable {T : Type}

namespace Spec
/-- The table has these column labels, and these rows with their labels and values; every label is found where it is. -/
structure Shows (t : Table T Str) (cls : List Str) (rows : List (Str × List T)) : Prop where
  labels : ∃ s, Table.Rel [] t s ∧ s.cl = cls.map some ∧ s.rl = (rows.map Prod.fst).map some
  width : ∀ row ∈ rows, row.2.length = cls.length
  cells : ∀ r c, t.get r c = match (rows[r]?).bind (·.2[c]?) with
    | some v => .ok v
    | none => .err

/-- A word: at least one character, and no white space. -/
def Word (l : Str) : Prop := l ≠ [] ∧ ∀ c ∈ l, isSpaceC c = false

/-- The text of a row: its label and its values with a tab before each. -/
def rowText (row : Str × List Str) : Str := row.1 ++ (row.2.map ('\t' :: ·)).flatten

/-- The text of rows with line ends between them, and `fin` behind the last one. -/
def rowsText (fin : Str) : List (Str × List Str) → Str
  | [] => []
  | [row] => rowText row ++ fin
  | row :: rows => rowText row ++ '\n' :: rowsText fin rows

/-- `t` is a text of each value, one by one. -/
def Texts (e : Ext T) (rows : List (Str × List T)) (texts : List (Str × List Str)) : Prop :=
  List.Forall₂ (fun row text => row.1 = text.1 ∧ List.Forall₂ (TextOf e) row.2 text.2) rows texts
end Spec
open Spec

/-! ### Labels -/

theorem rel_empty (zero : T) : Table.Rel ([] : Str) (Table.make [] zero 0 0) ⟨⟨0, 0, fun _ _ => zero⟩, [], []⟩ := by
  have lrel : LabelVector.Rel ([] : Str) (LabelVector.ofSize [] 0) [] := by
    refine ⟨by simp [LabelVector.ofSize], ?_⟩
    intro l i; simp [LabelVector.ofSize]
  refine ⟨lrel, lrel, rfl, rfl, by simp [Table.make], ?_⟩
  intro r c hr; exact absurd hr (Nat.not_lt_zero _)

theorem some_mem_map {l : Str} {ls : List Str} : some l ∈ ls.map some ↔ l ∈ ls := by simp

theorem addColumns_ok (zero : T) : ∀ (new done : List Str) (t : Table T Str) (s : LTable T Str), Table.Rel [] t s → s.cl = done.map some →
    s.rl = [] → (done ++ new).Nodup → ∃ t' s', addColumns zero new t = .ok t' ∧ Table.Rel [] t' s' ∧ s'.cl = (done ++ new).map some ∧ s'.rl = [] := by
  intro new
  induction new with
  | nil => intro done t s h hc hr hn; exact ⟨t, s, rfl, h, by simpa using hc, hr⟩
  | cons l ls ih =>
    intro done t s h hc hr hn
    have hl : some l ∉ s.cl := by
      rw [hc, some_mem_map]
      intro hm
      have := List.nodup_append.1 hn
      exact this.2.2 l hm l (by simp) rfl
    have := Table.addColumn_spec zero h l zero
    rw [if_neg hl] at this
    obtain ⟨t', s', h1, h2, h3, h4⟩ := ih (done ++ [l]) _ _ this.2 (by simp [LTable.addCol, hc]) (by simp [LTable.addCol, hr]) (by simpa using hn)
    refine ⟨t', s', ?_, h2, by simpa using h3, h4⟩
    unfold addColumns
    obtain ⟨a, b⟩ := this
    rcases hadd : t.addColumn [] zero l zero with ⟨x, y⟩
    rw [hadd] at a b h1
    simp only at a
    rw [a]
    exact h1

theorem addColumns_err (zero : T) : ∀ (new done : List Str) (t : Table T Str) (s : LTable T Str), Table.Rel [] t s → s.cl = done.map some →
    s.rl = [] → done.Nodup → ¬ (done ++ new).Nodup → addColumns zero new t = .err := by
  intro new
  induction new with
  | nil => intro done t s h hc hr hd hn; simp at hn; exact absurd hd hn
  | cons l ls ih =>
    intro done t s h hc hr hd hn
    have := Table.addColumn_spec zero h l zero
    rcases hadd : t.addColumn [] zero l zero with ⟨x, y⟩
    rw [hadd] at this
    unfold addColumns
    by_cases hl : l ∈ done
    · rw [if_pos (by rw [hc, some_mem_map]; exact hl)] at this
      rw [hadd]
      have e : x = .err := this.1
      rw [e]
    · rw [if_neg (by rw [hc, some_mem_map]; exact hl)] at this
      rw [hadd]
      have e : x = .ok s.m.cols := this.1
      rw [e]
      exact ih (done ++ [l]) _ _ this.2 (by simp [LTable.addCol, hc]) (by simp [LTable.addCol, hr])
        (List.nodup_append.2 ⟨hd, by simp, by intro a ha b hb; rw [List.mem_singleton] at hb; subst hb; rintro rfl; exact hl ha⟩) (by simpa using hn)

/-! ### Values -/

theorem write_ok {t : Table T Str} {s : LTable T Str} (h : Table.Rel [] t s) (r c : Nat) (v : T) (hr : r < s.m.rows) (hc : c < s.m.cols) :
    ∃ t', t.write r c v = .ok t' ∧ Table.Rel [] t' { s with m := s.m.write r c v } := by
  have := C10_step [] v t s h (.write r c v)
  simp only [tableStep, if_pos (show r < s.m.rows ∧ c < s.m.cols from ⟨hr, hc⟩), Table.step] at this
  cases hw : t.write r c v with
  | ok t' => rw [hw] at this; exact ⟨t', rfl, this.2⟩
  | err => rw [hw] at this; simp at this
  | ub => rw [hw] at this; simp at this

/-- The text ends, or goes on with white space. -/
def Cut (tail : Str) : Prop := ∀ c, tail.head? = some c → isSpaceC c = true

theorem cells_ok (e : Ext T) (k : Nat) (tail : Str) (ht : Cut tail) : ∀ (vs : List T) (texts : List Str) (i : Nat) (t : Table T Str) (s : LTable T Str),
    Table.Rel [] t s → s.m.rows = k + 1 → i + vs.length = s.m.cols → List.Forall₂ (TextOf e) vs texts →
    ∃ t' m', readCells e i vs.length ⟨(texts.map ('\t' :: ·)).flatten ++ tail, false, false⟩ t =
        .ok (⟨tail, tail.isEmpty && !vs.isEmpty, false⟩, t') ∧
      Table.Rel [] t' { s with m := m' } ∧ m'.rows = s.m.rows ∧ m'.cols = s.m.cols ∧
      (∀ j v, vs[j]? = some v → m'.cell k (i + j) = v) ∧ (∀ r c, r ≠ k ∨ c < i → m'.cell r c = s.m.cell r c) := by
  intro vs
  induction vs with
  | nil =>
    intro texts i t s h hr hi hf
    cases hf
    refine ⟨t, s.m, ?_, h, rfl, rfl, by simp, fun _ _ _ => rfl⟩
    simp [readCells]
  | cons v vs ih =>
    intro texts i t s h hr hi hf
    cases hf with
    | @cons _ x _ xs hx hxs =>
    simp only [List.length_cons] at hi
    obtain ⟨t1, e1, h1⟩ := write_ok h k i v (by omega) (by omega)
    obtain ⟨t', m', e2, h2, hr2, hc2, hcell, hkeep⟩ := ih xs (i + 1) t1 _ h1 hr (by simp [Matrix.write]; omega) hxs
    have htab : Blank ['\t'] := by intro c hc; simp at hc; subst hc; decide
    have hst : e ⟨((x :: xs).map ('\t' :: ·)).flatten ++ tail, false, false⟩ =
        (v, ⟨(xs.map ('\t' :: ·)).flatten ++ tail, tail.isEmpty && vs.isEmpty, false⟩) := by
      have hrest : ((x :: xs).map ('\t' :: ·)).flatten ++ tail = ['\t'] ++ x ++ ((xs.map ('\t' :: ·)).flatten ++ tail) := by simp
      rw [hrest]
      cases hxs with
      | nil =>
        simp only [List.map_nil, List.flatten_nil, List.nil_append, List.isEmpty_nil, Bool.and_true]
        cases tail with
        | nil =>
          have := hx.last ['\t'] htab
          simpa using this
        | cons c r =>
          have := hx.mid ['\t'] c r htab (ht c rfl)
          simpa using this
      | @cons w y ws ys hy hys =>
        have := hx.mid ['\t'] '\t' (y ++ ((ys.map ('\t' :: ·)).flatten ++ tail)) htab (by decide)
        simpa using this
    refine ⟨t', m', ?_, h2, hr2, hc2, ?_, ?_⟩
    · simp only [List.length_cons, readCells, hst]
      rw [show t.rows - 1 = k by rw [h.rows_eq, hr]; rfl, e1]
      simp only [Res.bind]
      cases vs with
      | nil =>
        cases hxs
        simp only [List.length_nil, readCells, List.map_nil, List.flatten_nil, List.nil_append, List.isEmpty_nil, List.isEmpty_cons] at e2 ⊢
        have := Res.ok.inj e2
        simp only [Prod.mk.injEq, true_and] at this
        simp [this.2]
      | cons w ws =>
        simp only [List.isEmpty_cons, Bool.and_false, Bool.not_false, Bool.and_true] at e2 ⊢
        exact e2
    · intro j w hj
      cases j with
      | zero =>
        simp only [List.getElem?_cons_zero, Option.some.injEq] at hj
        subst hj
        rw [Nat.add_zero, hkeep k i (Or.inr (Nat.lt_succ_self i))]
        simp [Matrix.write]
      | succ j =>
        rw [show i + (j + 1) = i + 1 + j by omega]
        exact hcell j w (by simpa using hj)
    · intro r c hrc
      rw [hkeep r c (by omega)]
      simp only [Matrix.write]
      rw [if_neg]
      omega

/-! ### Rows -/

/-- The labelled matrix has these rows. -/
def Has (s : LTable T Str) (cls : List Str) (rows : List (Str × List T)) : Prop :=
  s.cl = cls.map some ∧ s.rl = (rows.map Prod.fst).map some ∧ s.m.cols = cls.length ∧ s.m.rows = rows.length ∧
  (∀ row ∈ rows, row.2.length = cls.length) ∧ ∀ r c row v, rows[r]? = some row → row.2[c]? = some v → s.m.cell r c = v

theorem shows_of_has {t : Table T Str} {s : LTable T Str} (h : Table.Rel [] t s) {cls : List Str} {rows : List (Str × List T)} (hh : Has s cls rows) :
    Shows t cls rows := by
  obtain ⟨h1, h2, h3, h4, h5, h6⟩ := hh
  refine ⟨⟨s, h, h1, h2⟩, h5, ?_⟩
  intro r c
  unfold Table.get
  rw [h.rows_eq, h.cols_eq, h3, h4]
  by_cases hr : r < rows.length
  · have hrow := h5 _ (List.getElem_mem hr)
    simp only [List.getElem?_eq_getElem hr, Option.bind_some]
    by_cases hc : c < cls.length
    · have hcc : c < (rows[r]).2.length := by omega
      rw [if_pos ⟨hr, hc⟩, List.getElem?_eq_getElem hcc]
      simp only
      rw [← h6 r c _ _ (List.getElem?_eq_getElem hr) (List.getElem?_eq_getElem hcc), ← h3]
      exact Vec.get_ok (h.cells.2 r c (by omega) (by omega))
    · rw [if_neg (fun x => hc x.2), List.getElem?_eq_none (by omega)]
  · rw [if_neg (fun x => hr x.1), List.getElem?_eq_none (by omega)]; rfl

theorem has_of_shows {t : Table T Str} {cls : List Str} {rows : List (Str × List T)} (hh : Shows t cls rows) :
    ∃ s, Table.Rel [] t s ∧ Has s cls rows := by
  obtain ⟨⟨s, h, h1, h2⟩, hw, hc⟩ := hh
  have h3 : s.m.cols = cls.length := by rw [← h.clen, h1]; simp
  have h4 : s.m.rows = rows.length := by rw [← h.rlen, h2]; simp
  refine ⟨s, h, h1, h2, h3, h4, hw, ?_⟩
  intro r c row v hr hv
  have hr' := (List.getElem?_eq_some_iff.1 hr).1
  have hv' := (List.getElem?_eq_some_iff.1 hv).1
  have := hc r c
  rw [hr, Option.bind_some, hv] at this
  simp only at this
  have hwr := hw row (List.mem_of_getElem? hr)
  unfold Table.get at this
  rw [h.rows_eq, h.cols_eq, if_pos ⟨by omega, by omega⟩, Vec.get_ok (h.cells.2 r c (by omega) (by omega))] at this
  exact Res.ok.inj this

theorem rel_nodup {t : LabelVector Str} {ls : List Str} (h : LabelVector.Rel [] t (ls.map some)) : ls.Nodup := by
  rw [List.nodup_iff_injective_getElem]
  intro i j hij
  have h1 : (ls.map some)[i.1]? = some (some (ls[i.1])) := by simp
  have h2 : (ls.map some)[j.1]? = some (some (ls[i.1])) := by
    simp only [List.getElem?_map, Option.map_eq_some_iff, Option.some.injEq, exists_eq_right]
    rw [List.getElem?_eq_getElem j.2]; exact congrArg some hij.symm
  have e1 := (h.2 _ _).2 h1
  have e2 := (h.2 _ _).2 h2
  rw [e1] at e2
  exact Fin.ext (Option.some.inj e2)

theorem readRows_stop (e : Ext T) (zero : T) (fuel : Nat) (s : IS) (t : Table T Str) (h : s.good = false) : readRows e zero fuel s t = some (.ok t) := by
  cases fuel <;> simp [readRows, h]

theorem readRows_blank (e : Ext T) (zero : T) (fuel : Nat) (ws : Str) (hw : Blank ws) (t : Table T Str) :
    readRows e zero (fuel + 1) ⟨ws, false, false⟩ t = some (.ok t) := by
  have h1 := formatted_end ([] : Str) (fun s => (some (s.takeWhile (!isSpaceC ·)), s.dropWhile (!isSpaceC ·))) ws hw
  change (extWord ⟨ws, false, false⟩).2.eof = true at h1
  have h2 : (extWord ⟨ws, false, false⟩).2.good = false := by simp [IS.good, h1]
  have h3 : (⟨ws, false, false⟩ : IS).good = true := rfl
  unfold readRows
  rw [if_pos h3]
  simp only [h2, Bool.false_eq_true, if_false]
  exact readRows_stop _ _ _ _ _ h2

theorem addRow_ok {t : Table T Str} {s : LTable T Str} (h : Table.Rel [] t s) {cls : List Str} {rows : List (Str × List T)} (hh : Has s cls rows) (l : Str)
    (hl : l ∉ rows.map Prod.fst) (zero : T) : ∃ t', t.addRow l zero = .ok (s.m.rows, t') ∧ Table.Rel [] t' (s.addRow l zero) := by
  have := Table.addRow_spec h l zero
  rw [if_neg (by rw [hh.2.1, some_mem_map]; exact hl)] at this
  exact this

theorem rowsText_cons (fin : Str) (row : Str × List Str) (rows : List (Str × List Str)) :
    rowsText fin (row :: rows) = rowText row ++ (if rows.isEmpty then fin else '\n' :: rowsText fin rows) := by
  cases rows <;> simp [rowsText]

/-- One row, and the stream behind it. -/
theorem row_step (e : Ext T) (zero : T) (cls : List Str) (done : List (Str × List T)) (fuel : Nat) (ws tail : Str) (t : Table T Str) (s : LTable T Str)
    (row : Str × List T) (text : Str × List Str) (h : Table.Rel [] t s) (hh : Has s cls done) (hw : Blank ws) (hlab : row.1 = text.1)
    (hvals : List.Forall₂ (TextOf e) row.2 text.2) (hword : Word row.1) (hlen : row.2.length = cls.length) (hl : row.1 ∉ done.map Prod.fst)
    (htail : Cut tail) (htne : tail = [] → cls ≠ []) :
    ∃ t' s', readRows e zero (fuel + 1) ⟨ws ++ (rowText text ++ tail), false, false⟩ t = readRows e zero fuel ⟨tail, tail.isEmpty, false⟩ t' ∧
      Table.Rel [] t' s' ∧ Has s' cls (done ++ [row]) := by
  obtain ⟨hne, hword⟩ := hword
  obtain ⟨t1, e1, h1⟩ := addRow_ok h hh row.1 hl zero
  obtain ⟨hcl, hrl, hco, hro, hwi, hce⟩ := hh
  have hlen2 := hvals.length_eq
  obtain ⟨t2, m2, e2, h2, hr2, hc2, hcell, hkeep⟩ := cells_ok e done.length tail htail row.2 text.2 0 t1 _ h1 (by simp [LTable.addRow, Matrix.grow, hro])
    (by simp [LTable.addRow, Matrix.grow, hco, hlen]) hvals
  have hcols : t1.cols = row.2.length := by rw [h1.cols_eq]; simp [LTable.addRow, Matrix.grow, hco, hlen]
  have hhas : Has { s.addRow row.1 zero with m := m2 } cls (done ++ [row]) := by
    refine ⟨by simpa [LTable.addRow] using hcl, by simp [LTable.addRow, hrl], by rw [hc2]; simp [LTable.addRow, Matrix.grow, hco],
      by rw [hr2]; simp [LTable.addRow, Matrix.grow, hro], ?_, ?_⟩
    · intro r hr'
      rcases List.mem_append.1 hr' with h' | h'
      · exact hwi r h'
      · rw [List.mem_singleton.1 h']; exact hlen
    · intro r c row' v hr' hv
      rcases Nat.lt_trichotomy r done.length with hlt | heq | hgt
      · rw [List.getElem?_append_left hlt] at hr'
        have hc' : c < s.m.cols := by
          have := (List.getElem?_eq_some_iff.1 hv).1
          have := hwi row' (List.mem_of_getElem? hr')
          omega
        show m2.cell r c = v
        rw [hkeep r c (Or.inl (by omega))]
        simp only [LTable.addRow, Matrix.grow]
        rw [if_pos ⟨by omega, hc'⟩]
        exact hce r c row' v hr' hv
      · subst heq
        rw [List.getElem?_append_right (Nat.le_refl _)] at hr'
        simp at hr'
        subst hr'
        have := hcell c v hv
        rw [Nat.zero_add] at this
        exact this
      · rw [List.getElem?_eq_none (by simp; omega)] at hr'
        cases hr'
  have hempty : (tail.isEmpty && !row.2.isEmpty) = tail.isEmpty := by
    cases htl : tail with
    | cons c r => rfl
    | nil =>
      have := htne htl
      cases hr2 : row.2 with
      | cons x xs => rfl
      | nil => rw [hr2] at hlen; exact absurd (List.length_eq_zero_iff.1 hlen.symm) this
  have hlabel : extWord ⟨ws ++ (rowText text ++ tail), false, false⟩ =
      (row.1, ⟨(text.2.map ('\t' :: ·)).flatten ++ tail, false, false⟩) := by
    have hword2 := (C95_word row.1 hne hword).1
    have hshape : ∃ c r, (text.2.map ('\t' :: ·)).flatten ++ tail = c :: r ∧ isSpaceC c = true := by
      cases htx : text.2 with
      | cons x xs => exact ⟨'\t', _, rfl, by decide⟩
      | nil =>
        cases htl : tail with
        | cons c r => exact ⟨c, r, rfl, htail c (by rw [htl]; rfl)⟩
        | nil =>
          exfalso
          apply htne htl
          rw [htx] at hlen2
          rw [← List.length_eq_zero_iff]
          rw [← hlen]; exact hlen2
    obtain ⟨c, r, hcr, hcs⟩ := hshape
    rw [rowText, ← hlab]
    have := hword2.mid ws c r hw hcs
    rw [← hcr] at this
    simpa using this
  refine ⟨t2, _, ?_, h2, hhas⟩
  rw [readRows, if_pos (show (⟨_, false, false⟩ : IS).good = true from rfl)]
  simp only [hlabel]
  rw [if_pos (show (⟨_, false, false⟩ : IS).good = true from rfl), e1]
  simp only [Res.bind, hcols]
  rw [e2, hempty]

theorem newline_blank : Blank ['\n'] := by intro c hc; simp at hc; subst hc; decide

theorem newline_cut (r : Str) : Cut ('\n' :: r) := by intro c hc; simp at hc; subst hc; decide

/-- Rows with something behind them. -/
theorem rows_prefix (e : Ext T) (zero : T) (cls : List Str) (rest : Str) :
    ∀ (rows : List (Str × List T)) (texts : List (Str × List Str)) (done : List (Str × List T)) (fuel : Nat) (ws : Str) (t : Table T Str) (s : LTable T Str),
    Table.Rel [] t s → Has s cls done → Blank ws → Texts e rows texts → (∀ row ∈ rows, Word row.1 ∧ row.2.length = cls.length) →
    ((done ++ rows).map Prod.fst).Nodup →
    ∃ t' s' ws', readRows e zero (rows.length + fuel) ⟨ws ++ ((texts.map fun x => rowText x ++ ['\n']).flatten ++ rest), false, false⟩ t =
      readRows e zero fuel ⟨ws' ++ rest, false, false⟩ t' ∧ Blank ws' ∧ Table.Rel [] t' s' ∧ Has s' cls (done ++ rows) := by
  intro rows
  induction rows with
  | nil =>
    intro texts done fuel ws t s h hh hw hf hr hn
    cases hf
    exact ⟨t, s, ws, by simp, hw, h, by simpa using hh⟩
  | cons row rows ih =>
    intro texts done fuel ws t s h hh hw hf hr hn
    cases hf with
    | @cons _ text _ texts hx hxs =>
    obtain ⟨hlab, hvals⟩ := hx
    obtain ⟨hword, hlen⟩ := hr row (by simp)
    have hl : row.1 ∉ done.map Prod.fst := by
      intro hm
      rw [List.map_append, List.nodup_append] at hn
      exact hn.2.2 row.1 hm row.1 (by simp) rfl
    obtain ⟨t1, s1, e1, h1, hh1⟩ := row_step e zero cls done (rows.length + fuel) ws ('\n' :: ((texts.map fun x => rowText x ++ ['\n']).flatten ++ rest)) t s row
      text h hh hw hlab hvals hword hlen hl (newline_cut _) (by simp)
    obtain ⟨t2, s2, ws2, e2, hw2, h2, hh2⟩ := ih texts (done ++ [row]) fuel ['\n'] t1 s1 h1 hh1 newline_blank hxs (fun r hr' => hr r (by simp [hr']))
      (by simpa using hn)
    refine ⟨t2, s2, ws2, ?_, hw2, h2, by simpa using hh2⟩
    rw [← e2, List.length_cons, show rows.length + 1 + fuel = rows.length + fuel + 1 by omega]
    simpa using e1

theorem rows_ok (e : Ext T) (zero : T) (fin : Str) (cls : List Str) (hfin : fin = ['\n'] ∨ (fin = [] ∧ cls ≠ [])) (rows : List (Str × List T))
    (texts : List (Str × List Str)) (fuel : Nat) (t : Table T Str) (s : LTable T Str) (h : Table.Rel [] t s) (hh : Has s cls []) (hf : Texts e rows texts)
    (hr : ∀ row ∈ rows, Word row.1 ∧ row.2.length = cls.length) (hn : (rows.map Prod.fst).Nodup) (hfu : rows.length < fuel) :
    ∃ t' s', readRows e zero fuel ⟨rowsText fin texts, false, false⟩ t = some (.ok t') ∧ Table.Rel [] t' s' ∧ Has s' cls rows := by
  have hnil : Blank [] := by intro c hc; cases hc
  rcases hfin with rfl | ⟨rfl, hne⟩
  · obtain ⟨t1, s1, ws, e1, hw, h1, hh1⟩ := rows_prefix e zero cls [] rows texts [] (fuel - rows.length) [] t s h hh hnil hf hr (by simpa using hn)
    refine ⟨t1, s1, ?_, h1, by simpa using hh1⟩
    have hte : rowsText ['\n'] texts = [] ++ ((texts.map fun x => rowText x ++ ['\n']).flatten ++ []) := by
      rw [List.nil_append, List.append_nil]
      clear hf e1
      induction texts with
      | nil => rfl
      | cons x xs ih => rw [rowsText_cons]; cases xs <;> simp_all
    rw [hte, show fuel = rows.length + (fuel - rows.length) by omega, e1]
    rw [show fuel - rows.length = fuel - rows.length - 1 + 1 by omega, List.append_nil]
    exact readRows_blank e zero _ ws hw t1
  · rcases List.eq_nil_or_concat rows with rfl | ⟨init, last, rfl⟩
    · cases hf
      refine ⟨t, s, ?_, h, hh⟩
      rw [show fuel = fuel - 1 + 1 by simp at hfu; omega]
      exact readRows_blank e zero _ [] hnil t
    · rw [List.concat_eq_append] at hf hr hn hfu ⊢
      rcases List.eq_nil_or_concat texts with rfl | ⟨ti, tl, rfl⟩
      · have := hf.length_eq; simp at this
      rw [List.concat_eq_append] at hf ⊢
      have hlen : init.length = ti.length := by have := hf.length_eq; simpa using this
      have hf1 : Texts e init ti := by
        have := List.forall₂_take init.length hf
        rw [List.take_left' rfl, List.take_left' hlen.symm] at this
        exact this
      have hf2 : Texts e [last] [tl] := by
        have := List.forall₂_drop init.length hf
        rw [List.drop_left' rfl, List.drop_left' hlen.symm] at this
        exact this
      obtain ⟨⟨hlab, hvals⟩, _⟩ := List.forall₂_cons.1 hf2
      simp only [List.length_append, List.length_singleton] at hfu
      have hn1 : (init.map Prod.fst).Nodup := by rw [List.map_append] at hn; exact (List.nodup_append.1 hn).1
      obtain ⟨t1, s1, ws, e1, hw, h1, hh1⟩ := rows_prefix e zero cls (rowText tl) init ti [] (fuel - init.length) [] t s h hh hnil hf1
        (fun r hr' => hr r (by simp [hr'])) (by simpa using hn1)
      obtain ⟨hword, hlast⟩ := hr last (by simp)
      have hl : last.1 ∉ ([] ++ init).map Prod.fst := by
        intro hm
        rw [List.map_append, List.nodup_append] at hn
        exact hn.2.2 last.1 (by simpa using hm) last.1 (by simp) rfl
      obtain ⟨t2, s2, e2, h2, hh2⟩ := row_step e zero cls ([] ++ init) (fuel - init.length - 1) ws [] t1 s1 last tl h1 hh1 hw hlab hvals hword hlast hl
        (by intro c hc; cases hc) (fun _ => hne)
      refine ⟨t2, s2, ?_, h2, by simpa using hh2⟩
      have hte : rowsText [] (ti ++ [tl]) = [] ++ ((ti.map fun x => rowText x ++ ['\n']).flatten ++ rowText tl) := by
        rw [List.nil_append]
        clear hf hf1 hlen e1
        induction ti with
        | nil => simp [rowsText]
        | cons x xs ih => rw [List.cons_append, rowsText_cons, ih]; simp
      rw [hte, show fuel = init.length + (fuel - init.length) by omega, e1]
      rw [List.append_nil] at e2
      rw [show fuel - init.length = fuel - init.length - 1 + 1 by omega, e2]
      exact readRows_stop _ _ _ _ _ rfl

theorem getLine_cons (l r : Str) (h : '\n' ∉ l) : getLine (l ++ '\n' :: r) = (l, ⟨r, false, false⟩) := by
  have h1 : ∀ c ∈ l, decide (c ≠ '\n') = true := by
    intro c hc; simp only [decide_eq_true_eq]; rintro rfl; exact h hc
  unfold getLine
  rw [List.dropWhile_append_of_pos h1, List.takeWhile_append_of_pos h1]
  simp

theorem columns_text (hd : List Str) (cls : List Str) (hl : ∀ l ∈ hd ++ cls, PlainLabel l) (hasHeader : Bool) (hh : hd.length = if hasHeader then 1 else 0) :
    '\n' ∉ tabbed (hd ++ cls) ∧ (splitStr (tabbed (hd ++ cls)) " \t".toList).drop (if hasHeader then 1 else 0) = cls := by
  refine ⟨not_mem_tabbed (by decide) _ fun l hx => (hl l hx).2.2.2, ?_⟩
  have h1 : splitStr (tabbed (hd ++ cls)) " \t".toList = hd ++ cls := by
    have := C25_concat_then_split (hd ++ cls) ['\t'] " \t".toList (fun p hp => (hl p hp).1) (fun p hp c hc hm => by
      have : c = ' ' ∨ c = '\t' := by
        have e : cstr " \t".toList = [' ', '\t'] := by decide
        rw [e] at hm; simpa using hm
      rcases this with rfl | rfl
      · exact (hl p hp).2.1 hc
      · exact (hl p hp).2.2.1 hc) (by simp) (by decide)
    rw [concatList_eq _ ['\t'] (fun p hp => (hl p hp).1)] at this
    exact this
  rw [h1, ← hh]
  simp

/-- **C104.** Reading a text with a line of labels, separated by tabs, and rows of a label and values. With `hasHeader` the first word of the first
line is not a label. The last line need not have a line end. -/
theorem C104_read (e : Ext T) (zero : T) (hasHeader : Bool) (hd cls : List Str) (rows : List (Str × List T)) (texts : List (Str × List Str)) (fin : Str)
    (hh : hd.length = if hasHeader then 1 else 0) (hl : ∀ l ∈ hd ++ cls, PlainLabel l) (hcls : cls.Nodup)
    (hrows : ∀ row ∈ rows, Word row.1 ∧ row.2.length = cls.length) (hrn : (rows.map Prod.fst).Nodup) (ht : Texts e rows texts)
    (hfin : fin = ['\n'] ∨ (fin = [] ∧ cls ≠ [])) (fuel : Nat) (hf : rows.length < fuel) :
    ∃ t, readTable e zero hasHeader fuel (tabbed (hd ++ cls) ++ '\n' :: rowsText fin texts) = some (.ok t) ∧ Shows t cls rows := by
  obtain ⟨hnl, hcol⟩ := columns_text hd cls hl hasHeader hh
  obtain ⟨t1, s1, e1, h1, hc1, hr1⟩ := addColumns_ok zero cls [] _ _ (rel_empty zero) rfl rfl (by simpa using hcls)
  have hhas : Has s1 cls [] := by
    refine ⟨by simpa using hc1, by simpa using hr1, ?_, ?_, by simp, by simp⟩
    · rw [← h1.clen, hc1]; simp
    · rw [← h1.rlen, hr1]; rfl
  obtain ⟨t2, s2, e2, h2, hh2⟩ := rows_ok e zero fin cls hfin rows texts fuel t1 s1 h1 hhas ht hrows hrn hf
  refine ⟨t2, ?_, shows_of_has h2 (by simpa using hh2)⟩
  unfold readTable
  rw [getLine_cons _ _ hnl]
  simp only
  rw [hcol, e1]
  simpa using e2

/-! ### Writing -/

theorem line_tabbed (first : Str) (ts : List Str) : line first ts = tabbed (first :: ts) ++ ['\n'] := by
  have : ∀ ts : List Str, ∀ first : Str, first ++ (ts.map ('\t' :: ·)).flatten = tabbed (first :: ts) := by
    intro ts
    induction ts with
    | nil => intro first; simp [tabbed_one]
    | cons t ts ih => intro first; rw [tabbed_cons, ← ih t]; simp
  rw [line, this]

theorem rowsText_lines (rows : List (Str × List Str)) : rowsText ['\n'] rows = (rows.map fun row => line row.1 row.2).flatten := by
  induction rows with
  | nil => rfl
  | cons row rows ih =>
    rw [rowsText_cons]
    cases rows with
    | nil => simp [rowText, line]
    | cons r rs => rw [ih]; simp [rowText, line]

theorem mapM_list {A : Type} (f : Nat → Res A) : ∀ (l : List A) (k : Nat), (∀ i v, l[i]? = some v → f (k + i) = .ok v) →
    (List.range' k l.length).mapM f = .ok l := by
  intro l
  induction l with
  | nil => intro k _; rfl
  | cons a l ih =>
    intro k h
    rw [List.length_cons, List.range'_succ, List.mapM_cons, show f k = .ok a from h 0 a rfl, ih (k + 1) (fun i v hi => by
      rw [show k + 1 + i = k + (i + 1) by omega]; exact h (i + 1) v (by simpa using hi))]
    rfl

theorem writeTable_ok (out : T → Str) {t : Table T Str} {cls : List Str} {rows : List (Str × List T)} (h : Shows t cls rows) :
    writeTable out t = .ok (tabbed ("Row".toList :: cls) ++ '\n' :: rowsText ['\n'] (rows.map fun row => (row.1, row.2.map out))) := by
  obtain ⟨s, hr, hcl, hrl, hco, hro, hwi, hce⟩ := has_of_shows h
  have h1 : t.colLabels.labels = cls := by rw [hr.cl.1, hcl]; simp [Function.comp_def]
  have h2 : t.rowLabels.labels = rows.map Prod.fst := by rw [hr.rl.1, hrl]; simp [Function.comp_def]
  have hrows : t.rows = rows.length := by rw [hr.rows_eq, hro]
  have hcols : t.cols = cls.length := by rw [hr.cols_eq, hco]
  have hm : ((List.range t.rows).mapM fun r => (t.rowLabels.at' r).bind fun l =>
      ((List.range t.cols).mapM fun c => t.get r c).bind fun vs => .ok (line l (vs.map out))) =
      .ok (rows.map fun row => line row.1 (row.2.map out)) := by
    rw [hrows]
    rw [show rows.length = (rows.map fun row => line row.1 (row.2.map out)).length by simp]
    rw [List.range_eq_range' (n := (rows.map fun row => line row.1 (row.2.map out)).length)]
    refine mapM_list _ _ 0 fun r x hx => ?_
    rw [List.getElem?_map, Option.map_eq_some_iff] at hx
    obtain ⟨row, hrow, rfl⟩ := hx
    have hlen := hwi _ (List.mem_of_getElem? hrow)
    rw [Nat.zero_add]
    have hv : ((List.range t.cols).mapM fun c => t.get r c) = .ok row.2 := by
      rw [hcols, ← hlen, List.range_eq_range']
      refine mapM_list _ _ 0 fun c v hc => ?_
      rw [Nat.zero_add, h.cells, hrow, Option.bind_some, hc]
    simp only [LabelVector.at', h2, List.getElem?_map, hrow, Option.map_some, Res.ofOptionUb, Res.bind, hv]
  unfold writeTable
  rw [hm, h1]
  simp only [Res.bind, Res.ok.injEq]
  rw [line_tabbed, rowsText_lines]
  simp [Function.comp_def]

/-- **C104.** A table with words as labels and values whose texts can be read: what is read from its text has the same labels and rows, with every
value as it is read. -/
theorem C104_round_trip_partial (e : Ext T) (zero : T) (out : T → Str) (g : T → T) (t : Table T Str) (cls : List Str) (rows : List (Str × List T))
    (h : Shows t cls rows) (hc : ∀ l ∈ cls, PlainLabel l) (hr : ∀ row ∈ rows, Word row.1) (hv : ∀ row ∈ rows, ∀ v ∈ row.2, TextOf e (g v) (out v)) :
    ∃ text, writeTable out t = .ok text ∧ ∀ fuel, rows.length < fuel →
      ∃ t', readTable e zero true fuel text = some (.ok t') ∧ Shows t' cls (rows.map fun row => (row.1, row.2.map g)) := by
  obtain ⟨s, hs, hcl, hrl, _⟩ := has_of_shows h
  refine ⟨_, writeTable_ok out h, fun fuel hf => ?_⟩
  have hcn : cls.Nodup := rel_nodup (t := t.colLabels) (by rw [← hcl]; exact hs.cl)
  have hrn : (rows.map Prod.fst).Nodup := rel_nodup (t := t.rowLabels) (by rw [← hrl]; exact hs.rl)
  refine C104_read e zero true ["Row".toList] cls _ _ ['\n'] rfl ?_ hcn ?_ ?_ ?_ (Or.inl rfl) fuel (by simpa using hf)
  · intro l hl
    rcases List.mem_cons.1 hl with rfl | hl
    · refine ⟨by decide, by decide, by decide, by decide⟩
    · exact hc l hl
  · intro row hrow
    obtain ⟨row', h', rfl⟩ := List.mem_map.1 hrow
    exact ⟨hr row' h', by simpa using h.width row' h'⟩
  · simpa [Function.comp_def] using hrn
  · unfold Texts
    rw [List.forall₂_map_left_iff, List.forall₂_map_right_iff, List.forall₂_same]
    intro row hrow
    refine ⟨rfl, ?_⟩
    show List.Forall₂ (TextOf e) (row.2.map g) (row.2.map out)
    rw [List.forall₂_map_left_iff, List.forall₂_map_right_iff, List.forall₂_same]
    exact fun v hv' => hv row hrow v hv'

/-- **C104.** A table of `int` is read as it was written. -/
theorem C104_int (t : Table Int Str) (cls : List Str) (rows : List (Str × List Int)) (h : Shows t cls rows) (hc : ∀ l ∈ cls, PlainLabel l)
    (hr : ∀ row ∈ rows, Word row.1) (hv : ∀ row ∈ rows, ∀ v ∈ row.2, -2 ^ 31 ≤ v ∧ v < 2 ^ 31) :
    ∃ text, writeTable intToStr t = .ok text ∧ ∀ fuel, rows.length < fuel →
      ∃ t', readTable extInt 0 true fuel text = some (.ok t') ∧ Shows t' cls rows := by
  have := C104_round_trip_partial extInt 0 intToStr id t cls rows h hc hr fun row hrow v hv' => (C95_int v (hv row hrow v hv')).1
  simpa using this

/-! ### Floating point values -/

theorem digit_cut {r : Str} (h : Cut r) {c : Char} (hc : r.head? = some c) : isDigitC c = false := by
  cases hh : isDigitC c with
  | false => rfl
  | true => have := not_space_of_digit hh; rw [h c hc] at this; cases this

theorem expPart_tail {et tail : Str} (het : et = [] ∨ ∃ e, et = 'e' :: expText e) (h : Cut tail) : expPart (et ++ tail) = (et, tail) := by
  rcases het with rfl | ⟨e, rfl⟩
  · cases tail with
    | nil => rfl
    | cons c t =>
      have hs := h c rfl
      have : ¬ (c = 'e' ∨ c = 'E') := by rintro (rfl | rfl) <;> revert hs <;> decide
      simp only [List.nil_append, expPart, if_neg this]
  · obtain ⟨c, ds, h1, h2, h3⟩ := expText_form e
    obtain ⟨e1, e2⟩ := takeWhile_digits h3 (rest := tail) fun c hc => digit_cut h hc
    rw [h1]
    rcases h2 with rfl | rfl <;> simp [expPart, signPart, e1, e2]

theorem realSplit_toStr (neg : Bool) {x : ℚ} (hx : 0 ≤ x) {tail : Str} (h : Cut tail) : realSplit (toStr (.fin neg x) ++ tail) = (toStr (.fin neg x), tail) := by
  obtain ⟨ip, fp, et, h0, h1, h2, h3, het⟩ := gMag_form hx
  have hs : signPart (signText neg ++ (gMag x ++ tail)) = (signText neg, gMag x ++ tail) := by
    cases neg with
    | true => rfl
    | false =>
      obtain ⟨c, cs, rfl⟩ := List.exists_cons_of_ne_nil h1
      have hc := h2 c (by simp)
      have : gMag x ++ tail = c :: (gMag x ++ tail).tail := by rw [h0]; unfold withFrac; split <;> rfl
      rw [this]
      show signPart (c :: _) = ([], c :: _)
      unfold signPart
      split
      · next e => cases e; exact absurd hc (by decide)
      · next e => cases e; exact absurd hc (by decide)
      · rfl
  have hhead : ∀ c, (et ++ tail).head? = some c → isDigitC c = false ∧ c ≠ '.' := by
    rcases het with rfl | ⟨e, rfl⟩
    · intro c hc
      refine ⟨digit_cut h hc, ?_⟩
      rintro rfl
      exact absurd (h '.' hc) (by decide)
    · intro c hc; simp at hc; subst hc; decide
  have hexp := expPart_tail het h
  unfold realSplit
  simp only [toStr, List.append_assoc, hs]
  rw [h0]
  by_cases hf : fp = []
  · subst hf
    unfold withFrac
    rw [if_pos rfl]
    obtain ⟨e1, e2⟩ := takeWhile_digits h2 (rest := et ++ tail) fun c hc => (hhead c hc).1
    have e3 : fracPart (et ++ tail) = ([], et ++ tail) := by
      unfold fracPart
      split
      · next e => exact absurd rfl (hhead '.' (by rw [e]; rfl)).2
      · rfl
    simp only [List.append_assoc, e1, e2, e3]
    rw [if_neg (by simp [h1]), hexp]
    simp
  · unfold withFrac
    rw [if_neg hf]
    obtain ⟨e1, e2⟩ := takeWhile_digits h2 (rest := '.' :: (fp ++ (et ++ tail))) (by intro c hc; simp at hc; subst hc; decide)
    obtain ⟨e3, e4⟩ := takeWhile_digits h3 (rest := et ++ tail) fun c hc => (hhead c hc).1
    simp only [List.append_assoc, List.cons_append, e1, e2, fracPart, e3, e4]
    rw [if_neg (by simp [h1]), hexp]

/-- **C104.** The text of a finite number, with six digits, is read as the number that `strtod` finds in it. -/
theorem C104_real (f : Fmt) (neg : Bool) (x : ℚ) (hx : 0 ≤ x) (b : Bool) (y : ℚ) (h : strtod f (toStr (.fin neg x)) = some (.fin b y)) :
    TextOf (extReal f) (.fin b y) (toStr (.fin neg x)) := by
  have hp : Proper (.fin neg x) := by intro n' x' e; cases e; exact hx
  refine formatted_textOf _ _ ?_ ?_ ?_
  · obtain ⟨⟨c, t, h1, _⟩, _⟩ := toStr_chars _ hp
    rw [h1]; simp
  · intro c hc
    obtain ⟨ip, fp, et, h0, h1, h2, h3, het⟩ := gMag_form hx
    cases neg with
    | true => simp [toStr, signText] at hc; subst hc; decide
    | false =>
      obtain ⟨d, ds, rfl⟩ := List.exists_cons_of_ne_nil h1
      have : toStr (.fin false x) = d :: (gMag x).tail := by
        show [] ++ gMag x = _
        rw [h0]; unfold withFrac; split <;> rfl
      rw [this] at hc
      cases hc
      exact not_space_of_digit (h2 c (by simp))
  · intro r hr
    unfold readRealChars
    rw [realSplit_toStr neg hx hr]
    simp only [h]
    have := strtodRest_toStr (.fin neg x) hp (tail := []) (Or.inl rfl)
    rw [List.append_nil] at this
    rw [if_pos this]

/-- **C104.** A table of finite numbers comes back with every number as the one that its text with six digits is read as (C72). -/
theorem C104_float_partial (f : Fmt) (t : Table Fl Str) (cls : List Str) (rows : List (Str × List Fl)) (h : Shows t cls rows)
    (hc : ∀ l ∈ cls, PlainLabel l) (hr : ∀ row ∈ rows, Word row.1) (g : Fl → Fl)
    (hv : ∀ row ∈ rows, ∀ v ∈ row.2, ∃ neg x b y, v = .fin neg x ∧ 0 ≤ x ∧ strtod f (toStr v) = some (.fin b y) ∧ g v = .fin b y) :
    ∃ text, writeTable toStr t = .ok text ∧ ∀ fuel, rows.length < fuel →
      ∃ t', readTable (extReal f) (.fin false 0) true fuel text = some (.ok t') ∧ Shows t' cls (rows.map fun row => (row.1, row.2.map g)) := by
  refine C104_round_trip_partial (extReal f) (.fin false 0) toStr g t cls rows h hc hr ?_
  intro row hrow v hv'
  obtain ⟨neg, x, b, y, rfl, hx, hs, hg⟩ := hv row hrow v hv'
  rw [hg]
  exact C104_real f neg x hx b y hs

/-! ### Texts that are not tables -/

/-- A text that is not a value: behind a tab and before white space, nothing is read and the stream fails. -/
def Unreadable (zero : T) (rd : Str → Option T × Str) (bad : Str) : Prop :=
  ∀ (c : Char) (r : Str), isSpaceC c = true → ∃ rest, formatted zero rd ⟨'\t' :: (bad ++ c :: r), false, false⟩ = (zero, rest) ∧ rest.fail = true

theorem cells_failed (zero : T) (rd : Str → Option T × Str) (k : Nat) : ∀ (n i : Nat) (t : Table T Str) (s : LTable T Str) (st : IS),
    Table.Rel [] t s → s.m.rows = k + 1 → i + n = s.m.cols → st.fail = true →
    ∃ t' m' st', readCells (formatted zero rd) i n st t = .ok (st', t') ∧ st'.fail = true ∧
      Table.Rel [] t' { s with m := m' } ∧ m'.rows = s.m.rows ∧ m'.cols = s.m.cols ∧
      (∀ j, i ≤ j → j < i + n → m'.cell k j = zero) ∧ (∀ r c, r ≠ k ∨ c < i → m'.cell r c = s.m.cell r c) := by
  intro n
  induction n with
  | zero =>
    intro i t s st h hr hi hf
    exact ⟨t, s.m, st, rfl, hf, h, rfl, rfl, by intro j h1 h2; omega, fun _ _ _ => rfl⟩
  | succ n ih =>
    intro i t s st h hr hi hf
    have hst : formatted zero rd st = (zero, { st with fail := true }) := by simp [formatted, IS.good, hf]
    obtain ⟨t1, e1, h1⟩ := write_ok h k i zero (by omega) (by omega)
    obtain ⟨t', m', st', e2, hf2, h2, hr2, hc2, hcell, hkeep⟩ := ih (i + 1) t1 _ { st with fail := true } h1 hr (by simp [Matrix.write]; omega) rfl
    refine ⟨t', m', st', ?_, hf2, h2, hr2, hc2, ?_, ?_⟩
    · simp only [readCells, hst]
      rw [show t.rows - 1 = k by rw [h.rows_eq, hr]; rfl, e1]
      exact e2
    · intro j h1 h2
      rcases Nat.lt_or_ge i j with hij | hij
      · exact hcell j hij (by omega)
      · have : j = i := by omega
        subst this
        rw [hkeep k j (Or.inr (Nat.lt_succ_self j))]
        simp [Matrix.write]
    · intro r c hrc
      rw [hkeep r c (by omega)]
      simp only [Matrix.write]
      rw [if_neg]
      omega

theorem cells_bad (zero : T) (rd : Str → Option T × Str) (k : Nat) (tail bad : Str) (hb : Unreadable zero rd bad) (ht : Cut tail) (htn : tail ≠ [])
    (more : List Str) : ∀ (vs : List T) (texts : List Str) (i : Nat) (t : Table T Str) (s : LTable T Str),
    Table.Rel [] t s → s.m.rows = k + 1 → i + (vs.length + (more.length + 1)) = s.m.cols → List.Forall₂ (TextOf (formatted zero rd)) vs texts →
    ∃ t' m' st', readCells (formatted zero rd) i (vs.length + (more.length + 1))
        ⟨((texts ++ bad :: more).map ('\t' :: ·)).flatten ++ tail, false, false⟩ t = .ok (st', t') ∧ st'.fail = true ∧
      Table.Rel [] t' { s with m := m' } ∧ m'.rows = s.m.rows ∧ m'.cols = s.m.cols ∧
      (∀ j v, (vs ++ List.replicate (more.length + 1) zero)[j]? = some v → m'.cell k (i + j) = v) ∧ (∀ r c, r ≠ k ∨ c < i → m'.cell r c = s.m.cell r c) := by
  intro vs
  induction vs with
  | nil =>
    intro texts i t s h hr hi hf
    cases hf
    have hst : ∃ rest, formatted zero rd ⟨(([] ++ bad :: more).map ('\t' :: ·)).flatten ++ tail, false, false⟩ = (zero, rest) ∧ rest.fail = true := by
      cases more with
      | nil =>
        cases tail with
        | nil => exact absurd rfl htn
        | cons c r => simpa using hb c r (ht c rfl)
      | cons m ms =>
        have := hb '\t' (m ++ ((ms.map ('\t' :: ·)).flatten ++ tail)) (by decide)
        simpa using this
    obtain ⟨rest, hst, hfail⟩ := hst
    simp only [List.length_nil, Nat.zero_add] at hi
    obtain ⟨t1, e1, h1⟩ := write_ok h k i zero (by omega) (by omega)
    obtain ⟨t', m', st', e2, hf2, h2, hr2, hc2, hcell, hkeep⟩ := cells_failed zero rd k more.length (i + 1) t1 _ rest h1 hr (by simp [Matrix.write]; omega) hfail
    refine ⟨t', m', st', ?_, hf2, h2, hr2, hc2, ?_, ?_⟩
    · rw [List.length_nil, Nat.zero_add, readCells, hst, show t.rows - 1 = k by rw [h.rows_eq, hr]; rfl, e1]
      exact e2
    · intro j v hj
      rw [List.nil_append, List.getElem?_replicate] at hj
      split at hj
      · cases hj
        cases j with
        | zero =>
          rw [Nat.add_zero, hkeep k i (Or.inr (Nat.lt_succ_self i))]
          simp [Matrix.write]
        | succ j => exact hcell _ (by omega) (by omega)
      · cases hj
    · intro r c hrc
      rw [hkeep r c (by omega)]
      simp only [Matrix.write]
      rw [if_neg]
      omega
  | cons v vs ih =>
    intro texts i t s h hr hi hf
    cases hf with
    | @cons _ x _ xs hx hxs =>
    simp only [List.length_cons] at hi
    obtain ⟨t1, e1, h1⟩ := write_ok h k i v (by omega) (by omega)
    obtain ⟨t', m', st', e2, hf2, h2, hr2, hc2, hcell, hkeep⟩ := ih xs (i + 1) t1 _ h1 hr (by simp [Matrix.write]; omega) hxs
    have htab : Blank ['\t'] := by intro c hc; simp at hc; subst hc; decide
    have hst : formatted zero rd ⟨((x :: xs ++ bad :: more).map ('\t' :: ·)).flatten ++ tail, false, false⟩ =
        (v, ⟨((xs ++ bad :: more).map ('\t' :: ·)).flatten ++ tail, false, false⟩) := by
      have hrest : ∃ y ys, ((xs ++ bad :: more).map ('\t' :: ·)).flatten ++ tail = '\t' :: (y ++ ys) := by
        cases xs with
        | nil => exact ⟨bad, (more.map ('\t' :: ·)).flatten ++ tail, by simp⟩
        | cons a as => exact ⟨a, ((as ++ bad :: more).map ('\t' :: ·)).flatten ++ tail, by simp⟩
      obtain ⟨y, ys, hy⟩ := hrest
      have := hx.mid ['\t'] '\t' (y ++ ys) htab (by decide)
      rw [← hy] at this
      simpa using this
    refine ⟨t', m', st', ?_, hf2, h2, hr2, hc2, ?_, ?_⟩
    · rw [List.length_cons, show vs.length + 1 + (more.length + 1) = vs.length + (more.length + 1) + 1 by omega, readCells, hst,
        show t.rows - 1 = k by rw [h.rows_eq, hr]; rfl, e1]
      exact e2
    · intro j w hj
      cases j with
      | zero =>
        simp only [List.cons_append, List.getElem?_cons_zero, Option.some.injEq] at hj
        subst hj
        rw [Nat.add_zero, hkeep k i (Or.inr (Nat.lt_succ_self i))]
        simp [Matrix.write]
      | succ j =>
        rw [show i + (j + 1) = i + 1 + j by omega]
        exact hcell j w (by simpa using hj)
    · intro r c hrc
      rw [hkeep r c (by omega)]
      simp only [Matrix.write]
      rw [if_neg]
      omega

/-- **C104, violated.** A text with something that is not a value is read without an error. From there on the values are zero and the rows are
missing. -/
theorem C104_bad_value_violated (zero : T) (rd : Str → Option T × Str) (cls : List Str) (rows : List (Str × List T)) (texts : List (Str × List Str))
    (hl : ∀ l ∈ cls, PlainLabel l) (hcls : cls.Nodup) (hrows : ∀ row ∈ rows, Word row.1 ∧ row.2.length = cls.length)
    (l : Str) (hlw : Word l) (vs : List T) (vtexts : List Str) (bad : Str) (more : List Str) (post : Str)
    (hrn : (rows.map Prod.fst ++ [l]).Nodup) (ht : Texts (formatted zero rd) rows texts) (hvs : List.Forall₂ (TextOf (formatted zero rd)) vs vtexts)
    (hb : Unreadable zero rd bad) (hlen : vs.length + (more.length + 1) = cls.length) (fuel : Nat) (hf : rows.length < fuel) :
    ∃ t, readTable (formatted zero rd) zero true fuel (tabbed ("Row".toList :: cls) ++ '\n' ::
        ((texts.map fun x => rowText x ++ ['\n']).flatten ++ (rowText (l, vtexts ++ bad :: more) ++ '\n' :: post))) = some (.ok t) ∧
      Shows t cls (rows ++ [(l, vs ++ List.replicate (more.length + 1) zero)]) := by
  have hhl : ∀ l ∈ ["Row".toList] ++ cls, PlainLabel l := by
    intro l hl'
    rcases List.mem_cons.1 hl' with rfl | hl'
    · refine ⟨by decide, by decide, by decide, by decide⟩
    · exact hl l hl'
  obtain ⟨hnl, hcol⟩ := columns_text ["Row".toList] cls hhl true rfl
  obtain ⟨t1, s1, e1, h1, hc1, hr1⟩ := addColumns_ok zero cls [] _ _ (rel_empty zero) rfl rfl (by simpa using hcls)
  have hhas : Has s1 cls [] := by
    refine ⟨by simpa using hc1, by simpa using hr1, ?_, ?_, by simp, by simp⟩
    · rw [← h1.clen, hc1]; simp
    · rw [← h1.rlen, hr1]; rfl
  obtain ⟨t2, s2, ws, e2, hw, h2, hh2⟩ := rows_prefix (formatted zero rd) zero cls (rowText (l, vtexts ++ bad :: more) ++ '\n' :: post) rows texts []
    (fuel - rows.length) [] t1 s1 h1 hhas (by intro c hc; cases hc) ht hrows (by simpa using (List.nodup_append.1 hrn).1)
  rw [List.nil_append] at hh2
  have hl' : l ∉ rows.map Prod.fst := by
    intro hm
    exact (List.nodup_append.1 hrn).2.2 l hm l (by simp) rfl
  obtain ⟨t3, e3, h3⟩ := addRow_ok h2 hh2 l hl' zero
  obtain ⟨hcl, hrl, hco, hro, hwi, hce⟩ := hh2
  obtain ⟨t4, m4, st, e4, hf4, h4, hr4, hc4, hcell, hkeep⟩ := cells_bad zero rd rows.length ('\n' :: post) bad hb (newline_cut _) (by simp) more vs vtexts 0 t3 _ h3
    (by simp [LTable.addRow, Matrix.grow, hro]) (by simp [LTable.addRow, Matrix.grow, hco, hlen]) hvs
  have hcols : t3.cols = vs.length + (more.length + 1) := by rw [h3.cols_eq]; simp [LTable.addRow, Matrix.grow, hco, hlen]
  refine ⟨t4, ?_, shows_of_has h4 ?_⟩
  · unfold readTable
    rw [show ("Row".toList :: cls) = ["Row".toList] ++ cls from rfl, getLine_cons _ _ hnl]
    simp only [if_true, List.drop_succ_cons] at hcol ⊢
    rw [hcol, e1]
    simp only
    rw [List.nil_append] at e2
    rw [show fuel = rows.length + (fuel - rows.length) by omega, e2, show fuel - rows.length = fuel - rows.length - 1 + 1 by omega]
    have hlabel : extWord ⟨ws ++ (rowText (l, vtexts ++ bad :: more) ++ '\n' :: post), false, false⟩ =
        (l, ⟨((vtexts ++ bad :: more).map ('\t' :: ·)).flatten ++ '\n' :: post, false, false⟩) := by
      have hword2 := (C95_word l hlw.1 hlw.2).1
      have hshape : ∃ r, ((vtexts ++ bad :: more).map ('\t' :: ·)).flatten ++ '\n' :: post = '\t' :: r := by
        cases vtexts with
        | nil => exact ⟨_, rfl⟩
        | cons x xs => exact ⟨_, rfl⟩
      obtain ⟨r, hcr⟩ := hshape
      have := hword2.mid ws '\t' r hw (by decide)
      rw [← hcr] at this
      simpa [rowText] using this
    rw [readRows, if_pos (show (⟨_, false, false⟩ : IS).good = true from rfl)]
    simp only [hlabel]
    rw [if_pos (show (⟨_, false, false⟩ : IS).good = true from rfl), e3]
    simp only [Res.bind, hcols]
    rw [e4]
    exact readRows_stop _ _ _ _ _ (by simp [IS.good, hf4])
  · refine ⟨by simpa [LTable.addRow] using hcl, by simp [LTable.addRow, hrl], by rw [hc4]; simp [LTable.addRow, Matrix.grow, hco],
      by rw [hr4]; simp [LTable.addRow, Matrix.grow, hro], ?_, ?_⟩
    · intro r hr'
      rcases List.mem_append.1 hr' with h' | h'
      · exact hwi r h'
      · rw [List.mem_singleton.1 h']; simpa using hlen
    · intro r c row' v hr' hv
      rcases Nat.lt_trichotomy r rows.length with hlt | heq | hgt
      · rw [List.getElem?_append_left hlt] at hr'
        have hc' : c < s2.m.cols := by
          have := (List.getElem?_eq_some_iff.1 hv).1
          have := hwi row' (List.mem_of_getElem? hr')
          omega
        show m4.cell r c = v
        rw [hkeep r c (Or.inl (by omega))]
        simp only [LTable.addRow, Matrix.grow]
        rw [if_pos ⟨by omega, hc'⟩]
        exact hce r c row' v hr' hv
      · subst heq
        rw [List.getElem?_append_right (Nat.le_refl _)] at hr'
        simp at hr'
        subst hr'
        have := hcell c v hv
        rw [Nat.zero_add] at this
        exact this
      · rw [List.getElem?_eq_none (by simp; omega)] at hr'
        cases hr'

/-- **C104, violated.** Infinity and NaN are written as texts that are not read as values. -/
theorem C104_infinity_violated (f : Fmt) (neg : Bool) :
    Unreadable (.fin false 0) (readRealChars f) (toStr (.inf neg)) ∧ Unreadable (.fin false 0) (readRealChars f) (toStr (.nan neg)) := by
  have key : ∀ (a : Char) (t : Str), isDigitC a = false → isSpaceC a = false → a ≠ '.' → a ≠ '-' → a ≠ '+' →
      Unreadable (.fin false 0) (readRealChars f) (signText neg ++ a :: t) := by
    intro a t ha hsp hd hm hp c r hc
    have hrs : ∀ u : Str, realSplit (signText neg ++ a :: u) = (signText neg, a :: u) := by
      intro u
      have hs : signPart (signText neg ++ a :: u) = (signText neg, a :: u) := by
        cases neg with
        | true => rfl
        | false =>
          show signPart (a :: u) = ([], a :: u)
          unfold signPart
          split
          · next e => cases e; exact absurd rfl hm
          · next e => cases e; exact absurd rfl hp
          · rfl
      have hf : fracPart (a :: u) = ([], a :: u) := by
        unfold fracPart
        split
        · next e => cases e; exact absurd rfl hd
        · rfl
      unfold realSplit
      simp [hs, ha, hf]
    have hstr : strtod f (signText neg) = none := by cases neg <;> rfl
    have hdw : ('\t' :: (signText neg ++ a :: t ++ c :: r)).dropWhile isSpaceC = signText neg ++ a :: (t ++ c :: r) := by
      have hlead : ∃ d ds, signText neg ++ a :: (t ++ c :: r) = d :: ds ∧ isSpaceC d = false := by
        cases neg with
        | true => exact ⟨'-', _, rfl, by decide⟩
        | false => exact ⟨a, _, rfl, hsp⟩
      obtain ⟨d, ds, h1, h2⟩ := hlead
      rw [List.append_assoc, List.cons_append, h1, List.dropWhile_cons_of_pos (by decide), List.dropWhile_cons_of_neg (by simp [h2])]
    refine ⟨⟨a :: (t ++ c :: r), false, true⟩, ?_, rfl⟩
    unfold formatted
    simp only [IS.good, Bool.not_false, Bool.and_self, Bool.not_true, Bool.false_eq_true, if_false, hdw]
    split
    · next e => cases neg <;> simp [signText] at e
    · next d ds e =>
      rw [← e]
      simp only [readRealChars, hrs, hstr]
      simp
  exact ⟨key 'i' _ (by decide) (by decide) (by decide) (by decide) (by decide), key 'n' _ (by decide) (by decide) (by decide) (by decide) (by decide)⟩

/-- **C104.** Two columns with the same label are refused. -/
theorem C104_double_column (e : Ext T) (zero : T) (hasHeader : Bool) (hd cls : List Str) (hh : hd.length = if hasHeader then 1 else 0)
    (hl : ∀ l ∈ hd ++ cls, PlainLabel l) (hcls : ¬ cls.Nodup) (fuel : Nat) (rest : Str) :
    readTable e zero hasHeader fuel (tabbed (hd ++ cls) ++ '\n' :: rest) = some .err := by
  obtain ⟨hnl, hcol⟩ := columns_text hd cls hl hasHeader hh
  unfold readTable
  rw [getLine_cons _ _ hnl]
  simp only
  rw [hcol, addColumns_err zero cls [] _ _ (rel_empty zero) rfl rfl (by simp) (by simpa using hcls)]

/-- **C104.** Two rows with the same label are refused. -/
theorem C104_double_row (e : Ext T) (zero : T) (hasHeader : Bool) (hd cls : List Str) (rows : List (Str × List T)) (texts : List (Str × List Str))
    (hh : hd.length = if hasHeader then 1 else 0) (hl : ∀ l ∈ hd ++ cls, PlainLabel l) (hcls : cls.Nodup)
    (hrows : ∀ row ∈ rows, Word row.1 ∧ row.2.length = cls.length) (hrn : (rows.map Prod.fst).Nodup) (ht : Texts e rows texts)
    (l : Str) (hlw : Word l) (hin : l ∈ rows.map Prod.fst) (c : Char) (post : Str) (hc : isSpaceC c = true) (fuel : Nat) (hf : rows.length < fuel) :
    readTable e zero hasHeader fuel (tabbed (hd ++ cls) ++ '\n' :: ((texts.map fun x => rowText x ++ ['\n']).flatten ++ (l ++ c :: post))) = some .err := by
  obtain ⟨hnl, hcol⟩ := columns_text hd cls hl hasHeader hh
  obtain ⟨t1, s1, e1, h1, hc1, hr1⟩ := addColumns_ok zero cls [] _ _ (rel_empty zero) rfl rfl (by simpa using hcls)
  have hhas : Has s1 cls [] := by
    refine ⟨by simpa using hc1, by simpa using hr1, ?_, ?_, by simp, by simp⟩
    · rw [← h1.clen, hc1]; simp
    · rw [← h1.rlen, hr1]; rfl
  obtain ⟨t2, s2, ws, e2, hw, h2, hh2⟩ := rows_prefix e zero cls (l ++ c :: post) rows texts []
    (fuel - rows.length) [] t1 s1 h1 hhas (by intro c hc; cases hc) ht hrows (by simpa using hrn)
  rw [List.nil_append] at hh2
  have e3 : t2.addRow l zero = .err := by
    have := Table.addRow_spec h2 l zero
    rw [if_pos (by rw [hh2.2.1, some_mem_map]; exact hin)] at this
    exact this
  unfold readTable
  rw [getLine_cons _ _ hnl]
  simp only
  rw [hcol, e1]
  simp only
  rw [List.nil_append] at e2
  rw [show fuel = rows.length + (fuel - rows.length) by omega, e2, show fuel - rows.length = fuel - rows.length - 1 + 1 by omega]
  have hlabel := (C95_word l hlw.1 hlw.2).1.mid ws c post hw hc
  rw [← List.append_assoc, readRows, if_pos (show (⟨_, false, false⟩ : IS).good = true from rfl)]
  simp only [hlabel]
  rw [if_pos (show (⟨_, false, false⟩ : IS).good = true from rfl), e3]
  rfl

/-- **C104, violated.** A column whose label has a blank comes back as two columns. -/
theorem C104_blank_violated (e : Ext T) (zero : T) (out : T → Str) (t : Table T Str) (a b : Str) (ha : PlainLabel a) (hb : PlainLabel b) (hab : a ≠ b)
    (h : Shows t [a ++ ' ' :: b] []) :
    ∃ text, writeTable out t = .ok text ∧ ∀ fuel, 0 < fuel → ∃ t', readTable e zero true fuel text = some (.ok t') ∧ Shows t' [a, b] [] := by
  refine ⟨_, writeTable_ok out h, fun fuel hf => ?_⟩
  have hnl : '\n' ∉ tabbed ["Row".toList, a ++ ' ' :: b] := by
    refine not_mem_tabbed (by decide) _ ?_
    intro l hl
    simp only [List.mem_cons, List.not_mem_nil, or_false] at hl
    rcases hl with rfl | rfl
    · decide
    · simp only [List.mem_append, List.mem_cons, not_or]; exact ⟨ha.2.2.2, by decide, hb.2.2.2⟩
  have hsplit : splitStr (tabbed ["Row".toList, a ++ ' ' :: b]) " \t".toList = ["Row".toList, a, b] := by
    have e : cstr " \t".toList = [' ', '\t'] := by decide
    have hc : ∀ l, PlainLabel l → ∀ c ∈ l, c ∉ [' ', '\t'] := by
      intro l hl c hc hm
      rcases (by simpa using hm : c = ' ' ∨ c = '\t') with rfl | rfl
      · exact hl.2.1 hc
      · exact hl.2.2.1 hc
    have htext : tabbed ["Row".toList, a ++ ' ' :: b] = [] ++ "Row".toList ++ (['\t'] ++ a ++ ([' '] ++ b ++ [])) := by
      rw [tabbed_cons, tabbed_one]; simp
    unfold splitStr
    rw [e, htext, splitLoop_piece (by simp) (by decide) (by decide) (by simp), splitLoop_piece (by simp) ha.1 (hc a ha) (by simp),
      splitLoop_piece (by simp) hb.1 (hc b hb) (by simp), splitLoop_done (by simp)]
  obtain ⟨t1, s1, e1, h1, hc1, hr1⟩ := addColumns_ok zero [a, b] [] _ _ (rel_empty zero) rfl rfl (by simpa using hab)
  have hhas : Has s1 [a, b] [] := by
    refine ⟨by simpa using hc1, by simpa using hr1, ?_, ?_, by simp, by simp⟩
    · rw [← h1.clen, hc1]; simp
    · rw [← h1.rlen, hr1]; rfl
  refine ⟨t1, ?_, shows_of_has h1 hhas⟩
  unfold readTable
  rw [getLine_cons _ _ hnl]
  simp only [hsplit, if_true, List.drop_succ_cons, List.drop_zero, e1]
  rw [show fuel = fuel - 1 + 1 by omega]
  exact readRows_blank e zero _ [] (by intro c hc; cases hc) t1

/-- **C104, violated.** Reading a constant table by labels has no result. -/
theorem C104_const_violated (t : Table T Str) (row col : Str) : constGet t row col = .ub := rfl

/-- **C104.** Reading ends, for every text: a round takes at least one character. -/
theorem C104_ends (e : Ext T) (zero : T) (he : ∀ s, (e s).2.rest.length ≤ s.rest.length) (hasHeader : Bool) (text : Str) (fuel : Nat)
    (hf : text.length < fuel) : readTable e zero hasHeader fuel text ≠ none := by
  have hcells : ∀ n i s (t : Table T Str) p, readCells e i n s t = .ok p → p.1.rest.length ≤ s.rest.length := by
    intro n
    induction n with
    | zero => intro i s t p h; simp only [readCells, Res.ok.injEq] at h; subst h; exact Nat.le_refl _
    | succ n ih =>
      intro i s t p h
      simp only [readCells] at h
      cases hw : t.write (t.rows - 1) i (e s).1 with
      | ok t' => rw [hw] at h; exact Nat.le_trans (ih _ _ _ _ h) (he s)
      | err => rw [hw] at h; cases h
      | ub => rw [hw] at h; cases h
  have hword : ∀ s : IS, (extWord s).2.good = true → (extWord s).2.rest.length < s.rest.length := by
    intro s hg
    unfold extWord formatted at hg ⊢
    by_cases h1 : s.good
    · simp only [h1, Bool.not_true, Bool.false_eq_true, if_false] at hg ⊢
      have hle := List.length_dropWhile_le isSpaceC s.rest
      split at hg
      · simp [IS.good] at hg
      · next c cs hcs =>
        have hc : isSpaceC c = false := by
          have := List.head?_dropWhile_not isSpaceC s.rest
          rw [hcs] at this
          simpa using this
        rw [hcs] at hle
        simp only [hcs]
        have h2 : (c :: cs).dropWhile (!isSpaceC ·) = cs.dropWhile (!isSpaceC ·) := List.dropWhile_cons_of_pos (by simp [hc])
        rw [h2]
        have := List.length_dropWhile_le (!isSpaceC ·) cs
        simp only [List.length_cons] at hle
        omega
    · simp only [h1, Bool.not_false, if_true] at hg
      simp [IS.good] at hg
  have hrows : ∀ fuel s (t : Table T Str), s.rest.length < fuel → readRows e zero fuel s t ≠ none := by
    intro fuel
    induction fuel with
    | zero => intro s t h; exact absurd h (Nat.not_lt_zero _)
    | succ fuel ih =>
      intro s t h
      unfold readRows
      by_cases h1 : s.good
      · rw [if_pos h1]
        by_cases h2 : (extWord s).2.good
        · simp only [h2, if_true]
          have hlt := hword s h2
          split
          · next p hp =>
            refine ih _ _ ?_
            cases ha : t.addRow (extWord s).1 zero with
            | ok r =>
              rw [ha] at hp
              have := hcells _ _ _ _ _ hp
              omega
            | err => rw [ha] at hp; cases hp
            | ub => rw [ha] at hp; cases hp
          · simp
          · simp
        · simp only [h2, Bool.false_eq_true, if_false]
          rw [readRows_stop _ _ _ _ _ (by simpa using h2)]
          simp
      · rw [if_neg h1]; simp
  unfold readTable
  split
  · refine hrows _ _ _ (Nat.lt_of_le_of_lt ?_ hf)
    unfold getLine
    split
    · simp
    · next r hr =>
      have := List.length_dropWhile_le (fun x => decide (x ≠ '\n')) text
      rw [hr] at this
      simp at this ⊢
      omega
  · simp
  · simp

theorem formatted_le (zero : T) (rd : Str → Option T × Str) (h : ∀ s, (rd s).2.length ≤ s.length) (s : IS) :
    (formatted zero rd s).2.rest.length ≤ s.rest.length := by
  unfold formatted
  split
  · exact Nat.le_refl _
  · split
    · simp
    · next c cs hcs =>
      have h1 := List.length_dropWhile_le isSpaceC s.rest
      have h2 := h (s.rest.dropWhile isSpaceC)
      rw [hcs] at h1 h2
      exact Nat.le_trans h2 h1

/-- **C104.** Reading integers ends, for every text. -/
theorem C104_ends_int (hasHeader : Bool) (text : Str) : ∃ r, readTable extInt 0 hasHeader (text.length + 1) text = some r := by
  have := C104_ends extInt 0 (formatted_le 0 readIntChars ?_) hasHeader text (text.length + 1) (Nat.lt_succ_self _)
  · exact Option.ne_none_iff_exists'.1 this
  · intro s
    simp only [readIntChars]
    refine Nat.le_trans (List.length_dropWhile_le _ _) ?_
    unfold signChars
    split <;> simp

/-- **C104.** Reading floating point numbers ends, for every text. -/
theorem C104_ends_float (f : Fmt) (hasHeader : Bool) (text : Str) : ∃ r, readTable (extReal f) (.fin false 0) hasHeader (text.length + 1) text = some r := by
  have := C104_ends (extReal f) (.fin false 0) (formatted_le _ (readRealChars f) ?_) hasHeader text (text.length + 1) (Nat.lt_succ_self _)
  · exact Option.ne_none_iff_exists'.1 this
  · intro s
    have hs : ∀ s, (signPart s).2.length ≤ s.length := by intro s; unfold signPart; split <;> simp
    have hfr : ∀ s, (fracPart s).2.length ≤ s.length := by
      intro s; unfold fracPart; split
      · exact Nat.le_trans (List.length_dropWhile_le _ _) (by simp)
      · exact Nat.le_refl _
    have hex : ∀ s, (expPart s).2.length ≤ s.length := by
      intro s; unfold expPart; split
      · exact Nat.le_refl _
      · split
        · exact Nat.le_trans (List.length_dropWhile_le _ _) (Nat.le_trans (hs _) (by simp))
        · exact Nat.le_refl _
    simp only [readRealChars, realSplit]
    have h1 := hfr ((signPart s).2.dropWhile isDigitC)
    have h2 := List.length_dropWhile_le isDigitC (signPart s).2
    have h3 := hs s
    split
    · simp only; omega
    · have := hex (fracPart ((signPart s).2.dropWhile isDigitC)).2
      omega

/-! ### The hypotheses are met -/

private def demo : Str := "Row\tx\tlong_name\na\t1\t-20\nb\t3\t4\n".toList

private def look (r : Option (Res (Table Int Str))) : Option (List Str × List Str × List Int) :=
  match r with
  | some (.ok t) => some (t.colLabels.labels, t.rowLabels.labels, t.data)
  | _ => none

example : look (readTable extInt 0 true 9 demo) = some (["x".toList, "long_name".toList], ["a".toList, "b".toList], [1, -20, 3, 4]) := by decide +kernel
example : (match readTable extInt 0 true 9 demo with | some (.ok t) => writeTable intToStr t | _ => .err) = .ok demo := by decide +kernel
example : look (readTable extInt 0 true 9 "Row\tx\ty\na\t1\toops\nb\t3\t4\n".toList) =
    some (["x".toList, "y".toList], ["a".toList], [1, 0]) := by decide +kernel
example : readTable extInt 0 true 9 "Row\tx\tx\n".toList = some .err := by
  exact C104_double_column extInt 0 true ["Row".toList] ["x".toList, "x".toList] rfl
    (by intro l hl; simp only [List.cons_append, List.nil_append, List.mem_cons, List.not_mem_nil, or_false] at hl; rcases hl with rfl | rfl | rfl <;> exact ⟨by decide, by decide, by decide, by decide⟩) (by decide) 9 []

end Xo.TabText
