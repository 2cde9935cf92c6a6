import Verif.Model.StorageText
import Verif.Lemmas.NumTail
import Verif.Props.C25_Split
import Verif.Props.C90_Recorder
import Verif.Props.C72_NumText
import Mathlib.Data.List.TakeWhile

/-!
C91: a storage that is written to a text and read again.
-/
namespace Xo
namespace Num

theorem expRest_tail {et tail : Str} (het : et = [] ∨ ∃ e, et = 'e' :: expText e) (h : Stop tail) : expRest ['e', 'E'] (et ++ tail) = tail := by
  rcases het with rfl | ⟨e, rfl⟩
  · cases tail with
    | nil => rfl
    | cons c t =>
      obtain ⟨_, _, _, h1, h2⟩ := h.1 c rfl
      unfold expRest
      simp [h1, h2]
  · obtain ⟨c, ds, h1, h2, h3⟩ := expText_form e
    have hne : ds ≠ [] := by
      intro hds; rw [hds] at h1
      unfold expText at h1
      split at h1 <;> split at h1 <;> simp at h1
      all_goals exact absurd h1.2 (natToStr_spec _).2.1
    obtain ⟨e1, e2⟩ := takeWhile_digits h3 (rest := tail) fun c hc => (h.1 c hc).1
    rw [h1]
    unfold expRest
    rcases h2 with rfl | rfl <;> simp [splitSign, e1, e2, hne]

theorem realRest_tail {ip fp et tail : Str} (h2 : ∀ c ∈ ip, isDigitC c = true)
    (h3 : ∀ c ∈ fp, isDigitC c = true) (het : et = [] ∨ ∃ e, et = 'e' :: expText e) (h : Stop tail) (hdot : ∀ r, tail ≠ '.' :: r) :
    realRest isDigitC ['e', 'E'] (withFrac ip fp ++ (et ++ tail)) = tail := by
  have hhead : ∀ c, (et ++ tail).head? = some c → isDigitC c = false := by
    rcases het with rfl | ⟨e, rfl⟩
    · exact fun c hc => (h.1 c hc).1
    · intro c hc; simp at hc; subst hc; decide
  by_cases hf : fp = []
  · subst hf
    unfold withFrac
    rw [if_pos rfl]
    obtain ⟨e1, e2⟩ := takeWhile_digits h2 (rest := et ++ tail) hhead
    unfold realRest
    rw [e2]
    split
    · rename_i t heq
      rcases het with rfl | ⟨e, rfl⟩
      · exact absurd heq (hdot t)
      · simp at heq
    · exact expRest_tail het h
  · unfold withFrac
    rw [if_neg hf]
    obtain ⟨e1, e2⟩ := takeWhile_digits h2 (rest := '.' :: (fp ++ (et ++ tail))) (by intro c hc; simp at hc; subst hc; decide)
    obtain ⟨e3, e4⟩ := takeWhile_digits h3 (rest := et ++ tail) hhead
    unfold realRest
    simp only [List.append_assoc, List.cons_append] at e2 e4 ⊢
    rw [e2]
    simp only [e4]
    exact expRest_tail het h

theorem strtodRest_plain (neg : Bool) {c : Char} {t : Str} (hc : isDigitC c = true) (hx : ∀ x, t.head? = some x → x ≠ 'x' ∧ x ≠ 'X') :
    strtodRest (signText neg ++ c :: t) = realRest isDigitC ['e', 'E'] (c :: t) := by
  obtain ⟨hlow, hd⟩ := lower_digit hc
  have hmag : magRest (c :: t) = realRest isDigitC ['e', 'E'] (c :: t) := by
    unfold magRest
    split
    · rename_i x t' heq
      rw [if_neg]
      intro hl
      have := hx x (by rw [(List.cons.inj heq).2]; rfl)
      rcases lower_x hl with h | h
      · exact this.1 h
      · exact this.2 h
    · rfl
  have e1 := dropSpace_sign (neg := neg) (cs := t) (not_space_of_digit hc)
  have e2 : splitSign (signText neg ++ c :: t) = (neg, c :: t) := by
    apply splitSign_signText
    refine ⟨c, t, rfl, ?_, ?_⟩ <;> rintro rfl <;> revert hd <;> decide
  have e3 : ∀ w : Char, 57 < w.toNat → ∀ ws : Str, ((c :: t).take 3).map lower ≠ w :: ws := by
    intro w hw ws h
    simp only [List.take_succ_cons, List.map_cons, List.cons.injEq, hlow] at h
    rw [← h.1] at hw
    omega
  unfold strtodRest
  simp only [e1, e2]
  rw [if_neg (show ¬ _ = "inf".toList from e3 'i' (by decide) _), if_neg (show ¬ _ = "nan".toList from e3 'n' (by decide) _), hmag]

/-- Reading stops behind a written number, if the text ends there or goes on with a tab. -/
theorem strtodRest_toStr (v : Fl) (hv : ∀ neg x, v = .fin neg x → 0 ≤ x) {tail : Str} (ht : tail = [] ∨ ∃ r, tail = '\t' :: r) :
    strtodRest (toStr v ++ tail) = tail := by
  have h : Stop tail := by rcases ht with rfl | ⟨r, rfl⟩; exacts [stop_nil, stop_tab r]
  have hdot : ∀ r, tail ≠ '.' :: r := by rcases ht with rfl | ⟨r, rfl⟩ <;> intro r <;> simp
  cases v with
  | nan neg => cases neg <;> rcases ht with rfl | ⟨r, rfl⟩ <;> simp [toStr, signText, strtodRest, splitSign, isSpaceC, lower]
  | inf neg => cases neg <;> rcases ht with rfl | ⟨r, rfl⟩ <;> simp [toStr, signText, strtodRest, splitSign, isSpaceC, lower]
  | fin neg x =>
    obtain ⟨ip, fp, et, h0, h1, h2, h3, het⟩ := gMag_form (hv neg x rfl)
    have hr := realRest_tail h2 h3 het h hdot
    obtain ⟨c, cs, rfl⟩ := List.exists_cons_of_ne_nil h1
    have hc : isDigitC c = true := h2 c (by simp)
    have hshape : ∃ t, withFrac (c :: cs) fp ++ (et ++ tail) = c :: t ∧ ∀ x, t.head? = some x → x ≠ 'x' ∧ x ≠ 'X' := by
      have hetx : ∀ x, (et ++ tail).head? = some x → x ≠ 'x' ∧ x ≠ 'X' := by
        rcases het with rfl | ⟨e, rfl⟩
        · exact fun x hx => ⟨(h.1 x hx).2.1, (h.1 x hx).2.2.1⟩
        · intro x hx; simp at hx; subst hx; decide
      have hdx : ∀ x ∈ cs, x ≠ 'x' ∧ x ≠ 'X' := by
        intro x hx
        have := h2 x (by simp [hx])
        constructor <;> rintro rfl <;> revert this <;> decide
      unfold withFrac
      split
      · refine ⟨cs ++ (et ++ tail), rfl, ?_⟩
        cases cs with
        | nil => exact hetx
        | cons a as => intro x hx; simp at hx; exact hdx x (by simp [hx])
      · refine ⟨cs ++ '.' :: fp ++ (et ++ tail), rfl, ?_⟩
        cases cs with
        | nil => intro x hx; simp at hx; subst hx; decide
        | cons a as => intro x hx; simp at hx; exact hdx x (by simp [hx])
    obtain ⟨t, ht, hx⟩ := hshape
    show strtodRest ((signText neg ++ gMag x) ++ tail) = tail
    rw [h0, List.append_assoc, List.append_assoc, ht, strtodRest_plain neg hc hx, ← ht, hr]

end Num

namespace StoText
open Num Recorder Xo.Spec
variable {T : Type}

/-! ## Lines -/

/-- The texts with tabs between them. -/
def tabbed (ts : List Str) : Str := ['\t'].intercalate ts

theorem tabbed_cons (t u : Str) (ts : List Str) : tabbed (t :: u :: ts) = t ++ '\t' :: tabbed (u :: ts) := by
  simp [tabbed, List.intercalate, List.intersperse]

theorem tabbed_one (t : Str) : tabbed [t] = t := by simp [tabbed, List.intercalate]

theorem line_eq (ts : List Str) (h : ts ≠ []) : line ts = tabbed ts ++ ['\n'] := by
  induction ts with
  | nil => exact absurd rfl h
  | cons t ts ih =>
    cases ts with
    | nil => rw [tabbed_one]; rfl
    | cons u ts => rw [tabbed_cons, line, ih (by simp)]; simp; simp

theorem lines_line (l rest : Str) (h : '\n' ∉ l) : lines (l ++ '\n' :: rest) = l :: lines rest := by
  induction l with
  | nil => simp [lines]
  | cons c l ih =>
    simp only [List.mem_cons, not_or] at h
    rw [List.cons_append, lines, if_neg (Ne.symm h.1), ih h.2]

theorem not_mem_tabbed {c : Char} (hc : c ≠ '\t') (ts : List Str) (h : ∀ t ∈ ts, c ∉ t) : c ∉ tabbed ts := by
  induction ts with
  | nil => simp [tabbed, List.intercalate]
  | cons t ts ih =>
    cases ts with
    | nil => rw [tabbed_one]; exact h t (by simp)
    | cons u ts =>
      rw [tabbed_cons]
      simp only [List.mem_append, List.mem_cons, not_or]
      exact ⟨h t (by simp), hc, ih fun x hx => h x (List.mem_cons_of_mem _ hx)⟩

theorem lines_all (rows : List (List Str)) (h : ∀ r ∈ rows, r ≠ [] ∧ ∀ t ∈ r, '\n' ∉ t) :
    lines ((rows.map line).flatten) = rows.map tabbed := by
  induction rows with
  | nil => rfl
  | cons r rows ih =>
    have hr := h r (by simp)
    rw [List.map_cons, List.flatten_cons, line_eq r hr.1, List.append_assoc]
    rw [show ['\n'] ++ (rows.map line).flatten = '\n' :: (rows.map line).flatten from rfl,
      lines_line _ _ (not_mem_tabbed (by decide) r hr.2), ih fun x hx => h x (by simp [hx])]
    rfl

/-! ## Reading a row -/

/-- A value whose text can be read: it begins with no blank, has no line end and no zero in it, and if the text ends behind it or goes on with
a tab, it is read as the value `g v`. -/
structure Reads (C : Codec T) (g : T → T) (v : T) : Prop where
  head : ∃ c t, C.out v = c :: t ∧ c ∉ blanks
  line : '\n' ∉ C.out v
  zero : Char.ofNat 0 ∉ C.out v
  read : ∀ tail, (tail = [] ∨ ∃ r, tail = '\t' :: r) → C.inp (C.out v ++ tail) = some (g v, tail)

/-- The texts of the values from channel `ci` on, each behind a tab. -/
def rowTail (C : Codec T) (val : Nat → T) (ci n : Nat) : Str := ((List.range' ci n).map fun c => '\t' :: C.out (val c)).flatten

theorem rowTail_succ (C : Codec T) (val : Nat → T) (ci n : Nat) :
    rowTail C val ci (n + 1) = '\t' :: (C.out (val ci) ++ rowTail C val (ci + 1) n) := by
  simp [rowTail, List.range'_succ]

theorem rowTail_head (C : Codec T) (val : Nat → T) (ci n : Nat) : rowTail C val ci n = [] ∨ ∃ r, rowTail C val ci n = '\t' :: r := by
  cases n with
  | zero => left; rfl
  | succ n => right; exact ⟨_, rowTail_succ C val ci n⟩

theorem tabbed_row (C : Codec T) (val : Nat → T) (n ci : Nat) :
    '\t' :: tabbed ((List.range' ci (n + 1)).map fun c => C.out (val c)) = rowTail C val ci (n + 1) := by
  induction n generalizing ci with
  | zero => rw [rowTail_succ]; simp [tabbed_one, rowTail, List.range'_succ]
  | succ n ih =>
    rw [rowTail_succ, ← ih (ci + 1), List.range'_succ, List.range'_succ, List.map_cons, List.map_cons, tabbed_cons]

theorem skip_value (C : Codec T) (g : T → T) (v : T) (h : Reads C g v) (tail : Str) :
    skip (C.out v ++ tail) = C.out v ++ tail ∧ skip ('\t' :: (C.out v ++ tail)) = C.out v ++ tail := by
  obtain ⟨c, t, e, hc⟩ := h.head
  have h1 : skip (C.out v ++ tail) = C.out v ++ tail := by
    rw [e, List.cons_append, skip, List.dropWhile_cons, if_neg (by simpa using hc)]
  refine ⟨h1, ?_⟩
  rw [skip, List.dropWhile_cons, if_pos (by decide)]
  exact h1

theorem num_ok (C : Codec T) (g : T → T) (val : Nat → T) (ci n : Nat) (h : Reads C g (val ci)) (r : Str)
    (hr : r = rowTail C val ci (n + 1) ∨ '\t' :: r = rowTail C val ci (n + 1)) :
    (⟨r, true⟩ : Chars).num C = (g (val ci), ⟨rowTail C val (ci + 1) n, true⟩) := by
  have hs : skip r = C.out (val ci) ++ rowTail C val (ci + 1) n := by
    rw [rowTail_succ] at hr
    rcases hr with rfl | hr
    · exact (skip_value C g _ h _).2
    · rw [(List.cons.inj hr).2]; exact (skip_value C g _ h _).1
  have hne : (skip r).isEmpty = false := by
    obtain ⟨c, t, e, _⟩ := h.head
    rw [hs, e]; rfl
  simp only [Chars.num]
  rw [hne, hs, h.read _ (rowTail_head C val (ci + 1) n)]
  rfl

theorem cells_ok (C : Codec T) (g : T → T) (val : Nat → T) (ls : List Str) (f : Nat) : ∀ (n ci : Nat) (r : Str) (s : Storage T Str) (m : Matrix T),
    Lab s ls m → f < m.rows → ci + n = m.cols → (∀ c, ci ≤ c → c < m.cols → Reads C g (val c)) →
    (r = rowTail C val ci n ∨ '\t' :: r = rowTail C val ci n) →
    ∃ s' m', cells C f ci n ⟨r, true⟩ s = .ok s' ∧ Lab s' ls m' ∧ m'.rows = m.rows ∧ m'.cols = m.cols ∧
      ∀ f' c, c < m.cols → m'.cell f' c = if f' = f ∧ ci ≤ c then g (val c) else m.cell f' c := by
  intro n
  induction n with
  | zero =>
    intro ci r s m h hf hn hv hr
    refine ⟨s, m, rfl, h, rfl, rfl, ?_⟩
    intro f' c hc; rw [if_neg (by omega)]
  | succ n ih =>
    intro ci r s m h hf hn hv hr
    have hnum := num_ok C g val ci n (hv ci (Nat.le_refl _) (by omega)) r hr
    obtain ⟨s1, e1, h1⟩ := lab_write h hf (c := ci) (by omega) (g (val ci))
    obtain ⟨s2, m2, e2, h2, hr2, hc2, hv2⟩ := ih (ci + 1) _ s1 (m.write f ci (g (val ci))) h1 hf (by show _ = m.cols; omega)
      (fun c a b => hv c (by omega) b) (Or.inl rfl)
    refine ⟨s2, m2, ?_, h2, hr2, hc2, ?_⟩
    · rw [cells, if_pos rfl, hnum]
      simp only [e1, Res.bind]
      exact e2
    · intro f' c hc
      rw [hv2 f' c hc]
      simp only [Matrix.write]
      by_cases hf' : f' = f
      · by_cases hcc : c = ci
        · subst hcc; subst hf'; rw [if_neg (by omega), if_pos ⟨rfl, rfl⟩, if_pos ⟨rfl, Nat.le_refl _⟩]
        · by_cases hlt : ci ≤ c
          · rw [if_pos ⟨hf', by omega⟩, if_pos ⟨hf', hlt⟩]
          · rw [if_neg (by omega), if_neg (by omega), if_neg (by omega)]
      · rw [if_neg (by omega), if_neg (by omega), if_neg (by omega)]

theorem readRow_ok (C : Codec T) (g : T → T) (val : Nat → T) (ls : List Str) (s : Storage T Str) (m : Matrix T) (h : Lab s ls m)
    (hc : m.cols ≠ 0) (hv : ∀ c, c < m.cols → Reads C g (val c)) :
    ∃ s' m', readRow C s (tabbed ((List.range m.cols).map fun c => C.out (val c))) = .ok s' ∧ Lab s' ls m' ∧ m'.rows = m.rows + 1 ∧
      m'.cols = m.cols ∧ ∀ f c, f ≤ m.rows → c < m.cols → m'.cell f c = if f = m.rows then g (val c) else m.cell f c := by
  obtain ⟨k, hk⟩ := Nat.exists_eq_succ_of_ne_zero hc
  have hz : cstr (tabbed ((List.range m.cols).map fun c => C.out (val c))) = tabbed ((List.range m.cols).map fun c => C.out (val c)) := by
    unfold cstr
    rw [List.takeWhile_eq_self_iff]
    intro x hx
    simp only [decide_eq_true_eq]
    rintro rfl
    refine not_mem_tabbed (by decide) _ ?_ hx
    intro t ht
    obtain ⟨c, hc, rfl⟩ := List.mem_map.1 ht
    exact (hv c (by simpa using hc)).zero
  have h1 := lab_addFrame h C.zero
  obtain ⟨s', m', e, h2, hr, hcc, hcell⟩ := cells_ok C g val ls m.rows m.cols 0
    (tabbed ((List.range m.cols).map fun c => C.out (val c))) (s.addFrame C.zero) _ h1 (by simp [Matrix.grow]) (by simp [Matrix.grow])
    (fun c _ hc => hv c hc) (Or.inr (by rw [hk, List.range_eq_range']; exact tabbed_row C val k 0))
  refine ⟨s', m', ?_, h2, hr, hcc, ?_⟩
  · unfold readRow; rw [hz, h.1.1, h.1.2.1]; exact e
  · intro f c hf hc'
    rw [hcell f c hc']
    simp only [Nat.zero_le, and_true, Matrix.grow]
    by_cases e : f = m.rows
    · rw [if_pos e, if_pos e]
    · rw [if_neg e, if_neg e, if_pos ⟨by omega, hc'⟩]

theorem addLabels_ok (C : Codec T) (new : List Str) : ∀ (ls : List Str) (s : Storage T Str) (m : Matrix T), Lab s ls m → (ls ++ new).Nodup →
    m.rows = 0 → ∃ s' m', addLabels C new s = .ok s' ∧ Lab s' (ls ++ new) m' ∧ m'.rows = 0 := by
  induction new with
  | nil => intro ls s m h _ hr; exact ⟨s, m, rfl, by simpa using h, hr⟩
  | cons l new ih =>
    intro ls s m h hn hr
    have hl : l ∉ ls := fun hl => (List.nodup_append.1 hn).2.2 l hl l (by simp) rfl
    obtain ⟨s1, e1, h1⟩ := findOrAdd_new ([] : Str) h l hl C.zero
    have e1' : s.addChannel [] l C.zero = (.ok ls.length, s1) := by
      have : s.labels.find l = none := by unfold LabelVector.find; rw [h.2.2.2, if_neg hl]
      rw [← e1, Storage.findOrAddChannel, this]
    obtain ⟨s2, m2, e2, h2, hr2⟩ := ih (ls ++ [l]) s1 _ h1 (by simpa using hn) hr
    exact ⟨s2, m2, by rw [addLabels, e1']; exact e2, by simpa using h2, hr2⟩

theorem readRows_ok (C : Codec T) (g : T → T) (cell : Nat → Nat → T) (ls : List Str) : ∀ (n k : Nat) (s : Storage T Str) (m : Matrix T),
    Lab s ls m → m.cols ≠ 0 → m.rows = k → (∀ f c, f < k + n → c < m.cols → Reads C g (cell f c)) →
    (∀ f c, f < k → c < m.cols → m.cell f c = g (cell f c)) →
    ∃ s' m', ((List.range' k n).map fun f => tabbed ((List.range m.cols).map fun c => C.out (cell f c))).foldlM (readRow C) s = .ok s' ∧
      Lab s' ls m' ∧ m'.rows = k + n ∧ m'.cols = m.cols ∧ ∀ f c, f < k + n → c < m.cols → m'.cell f c = g (cell f c) := by
  intro n
  induction n with
  | zero => intro k s m h _ hr _ hcell; exact ⟨s, m, rfl, h, hr, rfl, hcell⟩
  | succ n ih =>
    intro k s m h hc hr hv hcell
    obtain ⟨s1, m1, e1, h1, hr1, hc1, hcell1⟩ := readRow_ok C g (cell k) ls s m h hc (fun c hc => hv k c (by omega) hc)
    obtain ⟨s2, m2, e2, h2, hr2, hc2, hcell2⟩ := ih (k + 1) s1 m1 h1 (by rw [hc1]; exact hc) (by omega)
      (fun f c hf hcc => hv f c (by omega) (by omega)) (fun f c hf hcc => by
        rw [hcell1 f c (by omega) (by omega)]
        by_cases e : f = m.rows
        · rw [if_pos e, e, hr]
        · rw [if_neg e]; exact hcell f c (by omega) (by omega))
    refine ⟨s2, m2, ?_, h2, by omega, by rw [hc2, hc1], ?_⟩
    · rw [List.range'_succ, List.map_cons, List.foldlM_cons, e1]
      rw [hc1] at e2
      exact e2
    · intro f c hf hcc; exact hcell2 f c (by omega) (by omega)

theorem writeText_ok (C : Codec T) (s : Storage T Str) (ls : List Str) (m : Matrix T) (h : Lab s ls m) :
    writeText C s = .ok (line ls ++ ((List.range m.rows).map fun f => line ((List.range m.cols).map fun c => C.out (m.cell f c))).flatten) := by
  have h1 : ((List.range s.channels).mapM fun c => s.labels.at' c) = .ok ls := by
    have := mapM_ok (fun c => s.labels.at' c) (fun c => ls.getD c []) (List.range s.channels) (fun c hc => by
      have hc : c < ls.length := by rw [← h.cols, ← h.1.2.1]; simpa using hc
      unfold LabelVector.at'
      rw [h.2.1, List.getElem?_eq_getElem hc, Res.ofOptionUb_some, List.getD_eq_getElem?_getD, List.getElem?_eq_getElem hc]; rfl)
    rw [this]
    congr 1
    have hlen : s.channels = ls.length := by rw [h.1.2.1, h.cols]
    rw [hlen]
    apply List.ext_getElem
    · simp
    · intro i a b; simp at a; simp [a]
  have h2 : ((List.range s.frames).mapM fun f => (List.range s.channels).mapM fun c => s.get f c) =
      .ok ((List.range m.rows).map fun f => (List.range m.cols).map fun c => m.cell f c) := by
    rw [h.1.1, h.1.2.1]
    refine mapM_ok _ _ _ fun f hf => mapM_ok _ _ _ fun c hc => ?_
    exact lab_get h f c (by simpa using hf) (by simpa using hc)
  simp only [writeText, h1, h2, Res.bind, List.map_map, Function.comp_def]

/-- A label that can be read: not empty, with no blank, tab or line end. -/
def PlainLabel (l : Str) : Prop := l ≠ [] ∧ ' ' ∉ l ∧ '\t' ∉ l ∧ '\n' ∉ l

theorem split_labels (ls : List Str) (h : ∀ l ∈ ls, PlainLabel l) : splitStr (tabbed ls) "\t ".toList = ls := by
  have := C25_concat_then_split ls ['\t'] "\t ".toList (fun p hp => (h p hp).1) (fun p hp c hc hm => by
    have : c = '\t' ∨ c = ' ' := by
      have e : cstr "\t ".toList = ['\t', ' '] := by decide
      rw [e] at hm; simpa using hm
    rcases this with rfl | rfl
    · exact (h p hp).2.2.1 hc
    · exact (h p hp).2.1 hc) (by simp) (by decide)
  rw [concatList_eq ls ['\t'] (fun p hp => (h p hp).1)] at this
  exact this

/-- **C91.** A storage with at least one channel, labels without blanks and readable values: what is read from its text has the same labels and
frames, and every value as it is read. -/
theorem C91_round_trip_partial (C : Codec T) (g : T → T) (s : Storage T Str) (ls : List Str) (m : Matrix T) (h : Lab s ls m) (hne : ls ≠ [])
    (hl : ∀ l ∈ ls, PlainLabel l) (hv : ∀ f c, f < s.frames → c < s.channels → Reads C g (m.cell f c)) (d : T) :
    ∃ text s', writeText C s = .ok text ∧ readText C (Storage.make [] 0 0 d) text = .ok s' ∧ s'.labels.labels = s.labels.labels ∧
      s'.frames = s.frames ∧ ∀ f c, f < s.frames → c < s.channels → s'.get f c = (s.get f c).map g := by
  have hc : m.cols ≠ 0 := by rw [h.cols]; simpa using hne
  have hnl : '\n' ∉ tabbed ls := not_mem_tabbed (by decide) ls fun l hx => (hl l hx).2.2.2
  rw [h.1.1, h.1.2.1] at hv
  obtain ⟨s1, m1, e1, h1, hr1⟩ := addLabels_ok C ls [] (Storage.make [] 0 0 d) _ (lab_empty [] d) (by simpa using h.2.2.1) rfl
  have hc1 : m1.cols = m.cols := by rw [h1.cols, h.cols]; simp
  obtain ⟨s2, m2, e2, h2, hr2, hc2, hcell2⟩ := readRows_ok C g m.cell ([] ++ ls) m.rows 0 s1 m1 h1 (by rw [hc1]; exact hc) hr1
    (fun f c hf hcc => hv f c (by omega) (by omega)) (fun f c hf => absurd hf (Nat.not_lt_zero _))
  refine ⟨_, s2, writeText_ok C s ls m h, ?_, by rw [h2.2.1, h.2.1]; rfl, by rw [h2.1.1, hr2, h.1.1]; omega, ?_⟩
  · have hlines : lines (line ls ++ ((List.range m.rows).map fun f => line ((List.range m.cols).map fun c => C.out (m.cell f c))).flatten) =
        tabbed ls :: ((List.range m.rows).map fun f => tabbed ((List.range m.cols).map fun c => C.out (m.cell f c))) := by
      have := lines_all (ls :: (List.range m.rows).map fun f => (List.range m.cols).map fun c => C.out (m.cell f c)) ?_
      · simpa [Function.comp_def] using this
      · intro r hr
        rcases List.mem_cons.1 hr with rfl | hr
        · exact ⟨hne, fun t ht => (hl t ht).2.2.2⟩
        · obtain ⟨f, hf, rfl⟩ := List.mem_map.1 hr
          refine ⟨by simpa using hc, ?_⟩
          intro t ht
          obtain ⟨c, hcc, rfl⟩ := List.mem_map.1 ht
          exact (hv f c (by simpa using hf) (by simpa using hcc)).line
    unfold readText
    rw [hlines]
    simp only [split_labels ls hl, e1, Res.bind]
    rw [← hc1, List.range_eq_range' (n := m.rows)]
    exact e2
  · intro f c hf hcc
    rw [h.1.1] at hf; rw [h.1.2.1] at hcc
    rw [lab_get h2 f c (by omega) (by omega), lab_get h f c hf hcc, hcell2 f c (by omega) (by omega)]; rfl



/-! ## Floating point numbers -/

/-- A floating point value: magnitudes are not negative. -/
def Proper (v : Fl) : Prop := ∀ neg x, v = .fin neg x → 0 ≤ x

theorem strtod_some (f : Fmt) (v : Fl) (hv : Proper v) : ∃ w, strtod f (toStr v) = some w := by
  cases v with
  | nan neg => exact ⟨_, (C72_special neg).2.1⟩
  | inf neg => exact ⟨_, (C72_special neg).1⟩
  | fin neg x => exact ⟨_, strtod_toStr_fin f neg (hv neg x rfl)⟩

/-- The characters of a number. -/
theorem toStr_chars (v : Fl) (hv : Proper v) : (∃ c t, toStr v = c :: t ∧ c ∉ blanks) ∧ '\n' ∉ toStr v ∧ Char.ofNat 0 ∉ toStr v := by
  have dig : ∀ {c : Char}, isDigitC c = true → c ∉ blanks ∧ c ≠ '\n' ∧ c ≠ Char.ofNat 0 := by
    intro c hc
    refine ⟨?_, ?_, ?_⟩
    · intro h
      have : ∀ c ∈ blanks, isDigitC c = false := by decide
      rw [this c h] at hc; cases hc
    · rintro rfl; revert hc; decide
    · rintro rfl; revert hc; decide
  cases v with
  | nan neg => cases neg <;> refine ⟨⟨_, _, rfl, by decide⟩, by decide, by decide⟩
  | inf neg => cases neg <;> refine ⟨⟨_, _, rfl, by decide⟩, by decide, by decide⟩
  | fin neg x =>
    obtain ⟨ip, fp, et, h0, h1, h2, h3, het⟩ := gMag_form (hv neg x rfl)
    have hmem : ∀ c ∈ gMag x, c ≠ '\n' ∧ c ≠ Char.ofNat 0 := by
      intro c hc
      rw [h0] at hc
      rcases List.mem_append.1 hc with hc | hc
      · have : c ∈ ip ∨ c = '.' ∨ c ∈ fp := by
          unfold withFrac at hc; split at hc
          · exact Or.inl hc
          · simpa using hc
        rcases this with h | rfl | h
        · exact (dig (h2 c h)).2
        · decide
        · exact (dig (h3 c h)).2
      · rcases het with rfl | ⟨e, rfl⟩
        · cases hc
        · obtain ⟨d, ds, e1, e2, e3⟩ := expText_form e
          rw [e1] at hc
          rcases List.mem_cons.1 hc with rfl | hc
          · decide
          · rcases List.mem_cons.1 hc with rfl | hc
            · rcases e2 with rfl | rfl <;> decide
            · exact (dig (e3 c hc)).2
    have hs : ∀ c ∈ signText neg, c ≠ '\n' ∧ c ≠ Char.ofNat 0 := by cases neg <;> decide
    refine ⟨?_, ?_, ?_⟩
    · cases neg with
      | true => exact ⟨'-', gMag x, rfl, by decide⟩
      | false =>
        obtain ⟨c, cs, rfl⟩ := List.exists_cons_of_ne_nil h1
        have hc := (dig (h2 c (by simp))).1
        refine ⟨c, (withFrac (c :: cs) fp ++ et).tail, ?_, hc⟩
        show [] ++ gMag x = _
        rw [h0]; unfold withFrac; split <;> rfl
    · intro h; rcases List.mem_append.1 h with h | h
      · exact (hs _ h).1 rfl
      · exact (hmem _ h).1 rfl
    · intro h; rcases List.mem_append.1 h with h | h
      · exact (hs _ h).2 rfl
      · exact (hmem _ h).2 rfl

/-- Every floating point value can be read. -/
theorem reads_float (f : Fmt) (v : Fl) (hv : Proper v) : Reads (flCodec f) (fun v => (strtod f (toStr v)).getD (.fin false 0)) v := by
  obtain ⟨h1, h2, h3⟩ := toStr_chars v hv
  obtain ⟨w, hw⟩ := strtod_some f v hv
  refine ⟨h1, h2, h3, ?_⟩
  intro tail ht
  have hst : Stop tail := by rcases ht with rfl | ⟨r, rfl⟩; exacts [stop_nil, stop_tab r]
  show (strtod f (toStr v ++ tail)).map (fun w => (w, strtodRest (toStr v ++ tail))) = _
  rw [strtod_toStr_tail f v hv hst, hw, strtodRest_toStr v hv ht]; rfl

/-- **C91.** A storage of floating point values: the labels and frames come back, and every value as the number that its text with six digits is
read as (C72). -/
theorem C91_float_partial (f : Fmt) (s : Storage Fl Str) (ls : List Str) (m : Matrix Fl) (h : Lab s ls m) (hne : ls ≠ [])
    (hl : ∀ l ∈ ls, PlainLabel l) (hv : ∀ f c, f < s.frames → c < s.channels → Proper (m.cell f c)) (d : Fl) :
    ∃ text s', writeText (flCodec f) s = .ok text ∧ readText (flCodec f) (Storage.make [] 0 0 d) text = .ok s' ∧
      s'.labels.labels = s.labels.labels ∧ s'.frames = s.frames ∧
      ∀ k c, k < s.frames → c < s.channels → ∃ v w, s.get k c = .ok v ∧ s'.get k c = .ok w ∧ strtod f (toStr v) = some w := by
  obtain ⟨text, s', e1, e2, e3, e4, e5⟩ := C91_round_trip_partial (flCodec f) _ s ls m h hne hl (fun k c hk hc => reads_float f _ (hv k c hk hc)) d
  refine ⟨text, s', e1, e2, e3, e4, ?_⟩
  intro k c hk hc
  have hg := lab_get h k c (by rw [← h.1.1]; exact hk) (by rw [← h.1.2.1]; exact hc)
  obtain ⟨w, hw⟩ := strtod_some f _ (hv k c hk hc)
  refine ⟨_, w, hg, ?_, hw⟩
  rw [e5 k c hk hc, hg]
  show Res.ok ((strtod f (toStr (m.cell k c))).getD _) = _
  rw [hw]; rfl

/-- Storages of numbers that survive as texts (see `C72_survive`, `C72_six_digits`) come back exactly. -/
theorem C91_float_exact (f : Fmt) (s : Storage Fl Str) (ls : List Str) (m : Matrix Fl) (h : Lab s ls m) (hne : ls ≠ [])
    (hl : ∀ l ∈ ls, PlainLabel l)
    (hv : ∀ k c, k < s.frames → c < s.channels → Proper (m.cell k c) ∧ strtod f (toStr (m.cell k c)) = some (m.cell k c)) (d : Fl) :
    ∃ text s', writeText (flCodec f) s = .ok text ∧ readText (flCodec f) (Storage.make [] 0 0 d) text = .ok s' ∧
      s'.labels.labels = s.labels.labels ∧ s'.frames = s.frames ∧ ∀ k c, k < s.frames → c < s.channels → s'.get k c = s.get k c := by
  obtain ⟨text, s', e1, e2, e3, e4, e5⟩ := C91_float_partial f s ls m h hne hl (fun k c hk hc => (hv k c hk hc).1) d
  refine ⟨text, s', e1, e2, e3, e4, ?_⟩
  intro k c hk hc
  have hg := lab_get h k c (by rw [← h.1.1]; exact hk) (by rw [← h.1.2.1]; exact hc)
  obtain ⟨v, w, h1, h2, h3⟩ := e5 k c hk hc
  rw [hg] at h1; cases h1
  rw [(hv k c hk hc).2] at h3; cases h3
  rw [h2, hg]

/-! ## What does not come back -/

/-- **C91 is violated by a blank in a label**: the text has two labels, so that a channel is added and the values move. -/
theorem C91_blank_violated (C : Codec T) (d : T) (a b : Str) (ha : PlainLabel a) (hb : PlainLabel b) (hab : a ≠ b) (idx : Str → Option Nat) :
    ∃ text s', writeText C ⟨0, ⟨[a ++ ' ' :: b], idx⟩, []⟩ = .ok text ∧ readText C (Storage.make [] 0 0 d) text = .ok s' ∧
      s'.labels.labels = [a, b] := by
  have hnl : '\n' ∉ a ++ ' ' :: b := by
    simp only [List.mem_append, List.mem_cons, not_or]; exact ⟨ha.2.2.2, by decide, hb.2.2.2⟩
  obtain ⟨s1, m1, e1, h1, hr1⟩ := addLabels_ok C [a, b] [] (Storage.make [] 0 0 d) _ (lab_empty [] d) (by simpa using hab) rfl
  refine ⟨(a ++ ' ' :: b) ++ '\n' :: [], s1, ?_, ?_, h1.2.1⟩
  · simp [writeText, Storage.channels, LabelVector.size, LabelVector.at', line, Res.bind, List.range_succ, Res.ofOptionUb]
  · have hsp : splitStr (a ++ ' ' :: b) "\t ".toList = [a, b] := by
      have hc : ∀ l, PlainLabel l → ∀ c ∈ l, c ∉ cstr "\t ".toList := by
        intro l hl c hc hm
        have e : cstr "\t ".toList = ['\t', ' '] := by decide
        rw [e] at hm
        rcases (by simpa using hm : c = '\t' ∨ c = ' ') with rfl | rfl
        · exact hl.2.2.1 hc
        · exact hl.2.1 hc
      have := C25_concat_then_split [a, b] [' '] "\t ".toList (by simp [ha.1, hb.1])
        (by simp only [List.mem_cons, List.not_mem_nil, or_false]; rintro p (rfl | rfl); exacts [hc _ ha, hc _ hb]) (by simp) (by decide)
      rw [concatList_eq [a, b] [' '] (by simp [ha.1, hb.1])] at this
      simpa [List.intercalate, List.intersperse] using this
    unfold readText
    rw [lines_line _ _ hnl]
    simp only [hsp, e1, Res.bind, lines]
    rfl

/-- **C91 is violated by storages without channels**: the text is empty, and the number of frames is lost. -/
theorem C91_no_channels_violated (C : Codec T) (d : T) (n : Nat) :
    writeText C (Storage.make [] n 0 d) = .ok [] ∧ readText C (Storage.make [] 0 0 d) [] = .ok (Storage.make [] 0 0 d) := by
  constructor
  · have h1 : Storage.channels (Storage.make ([] : Str) n 0 d) = 0 := rfl
    have h2 := mapM_ok (fun f => (List.range 0).mapM fun c => (Storage.make ([] : Str) n 0 d).get f c) (fun _ => []) (List.range n) (fun _ _ => rfl)
    simp only [writeText, h1]
    rw [show (Storage.make ([] : Str) n 0 d).frames = n from rfl, h2]
    show Res.ok _ = _
    congr 1
    have : ∀ l : List Nat, (((l.map fun _ => ([] : List T)).map fun r => line (r.map C.out)).flatten) = [] := by
      intro l; induction l with
      | nil => rfl
      | cons a l ih => simpa [line] using ih
    simpa [line] using this (List.range n)
  · rfl

/-- A label that comes twice throws. -/
theorem C91_double_label (C : Codec T) (d : T) (l : Str) (hl : PlainLabel l) (rest : Str) :
    readText C (Storage.make [] 0 0 d) (l ++ '\t' :: l ++ '\n' :: rest) = .err := by
  have hnl : '\n' ∉ l ++ '\t' :: l := by
    simp only [List.mem_append, List.mem_cons, not_or]; exact ⟨hl.2.2.2, by decide, hl.2.2.2⟩
  have hs : splitStr (l ++ '\t' :: l) "\t ".toList = [l, l] := by
    have := split_labels [l, l] (by simp [hl])
    rw [tabbed_cons, tabbed_one] at this; exact this
  unfold readText
  rw [lines_line _ _ hnl]
  obtain ⟨s1, e1, h1⟩ := findOrAdd_new ([] : Str) (lab_empty ([] : Str) d) l (by simp) C.zero
  have e1' : (Storage.make ([] : Str) 0 0 d).addChannel [] l C.zero = (.ok 0, s1) := e1
  have hidx : s1.labels.idx l ≠ none := by rw [h1.2.2.2]; simp
  have h2 := C08_duplicate_label_grows ([] : Str) s1 _ h1.1 l C.zero hidx
  have : addLabels C [l, l] (Storage.make [] 0 0 d) = .err := by
    rw [addLabels, e1']
    show addLabels C [l] s1 = _
    rw [addLabels]
    rcases h3 : s1.addChannel [] l C.zero with ⟨r, s2⟩
    rw [h3] at h2
    simp only at h2
    rw [h2.1]
  simp only [hs, this, Res.bind]

/-- Non-vacuity: a storage with two channels and two frames, written and read. -/
example : (writeText (flCodec binary64) ⟨2, ⟨["time".toList, "y".toList], fun _ => none⟩,
    [.fin false 0, .fin true (1/2), .fin false (1/10), .inf false]⟩).map String.ofList = .ok "time\ty\n0\t-0.5\n0.1\tinf\n" := by decide +kernel

example : (readText (flCodec binary64) (Storage.make [] 0 0 (.fin false 0)) "time y\n0\t-0.5\n1.5e1 inf 3\n2".toList).map
    (fun s => (s.labels.labels.map String.ofList, s.frames, s.data)) = .ok (["time", "y"], 3,
      [.fin false 0, .fin true (1/2), .fin false 15, .inf false, .fin false 2, .fin false 0]) := by decide +kernel

end StoText

end Xo
