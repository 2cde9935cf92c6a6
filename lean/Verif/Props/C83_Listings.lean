import Verif.Model.Listing
import Verif.Props.C18_PropNodeAccessed

/-!
C83: listings of a tree, and reports of the values that have not been read.
-/
namespace Xo
namespace Spec

mutual
/-- The nodes below a node from top to bottom, each with its depth and its name. -/
def outline (d : Nat) : PropNode → List (Nat × Str × PropNode)
  | .mk _ ks _ => outlineKids d ks
def outlineKids (d : Nat) : List (Str × PropNode) → List (Nat × Str × PropNode)
  | [] => []
  | (k, c) :: cs => (d, k, c) :: (outline (d + 1) c ++ outlineKids d cs)
end

/-- The space that indentation and name take. -/
def nameWidth (e : Nat × Str × PropNode) : Nat := 2 * e.1 + e.2.1.length

/-- The space of the widest name. -/
def widest : List (Nat × Str × PropNode) → Nat
  | [] => 0
  | e :: es => max (nameWidth e) (widest es)

/-- A text that is filled up with blanks to a width. -/
def fillTo (w : Nat) (s : Str) : Str := s ++ List.replicate (w - s.length) ' '

/-- A line of a listing. Nodes with children and without a value have their name only. -/
def listLine (w : Nat) (e : Nat × Str × PropNode) : Str :=
  let name := List.replicate (2 * e.1) ' ' ++ e.2.1
  (if e.2.2.value = [] ∧ e.2.2.kids ≠ [] then name else fillTo w name ++ " = ".toList ++ e.2.2.value)

/-- A line of the report of unread values: nodes that have not been read come with their value and a star, others lead to such nodes. -/
def reportLine (e : Nat × Str × PropNode) : Str :=
  List.replicate (2 * e.1) ' ' ++ e.2.1 ++ (if unread e.2.2 [] then " = ".toList ++ e.2.2.value ++ " *".toList else [])

/-- The node or something below it has not been read. -/
def hasUnread (n : PropNode) : Bool := (positions n).any (unread n)
end Spec
open Spec PropNode

namespace PropNode

mutual
theorem alignWidth_outline (d : Nat) : ∀ n : PropNode, alignWidth 2 d n = widest (outline d n)
  | .mk v ks a => by
    rw [alignWidth, outline, alignWidthKids_outline d ks 0, Nat.zero_max]
theorem alignWidthKids_outline (d : Nat) : ∀ (ks : Kids) (w : Nat), alignWidthKids 2 d ks w = max w (widest (outlineKids d ks))
  | [], w => by rw [alignWidthKids, outlineKids, widest, Nat.max_zero]
  | (k, c) :: cs, w => by
    rw [alignWidthKids, outlineKids, widest, alignWidthKids_outline d cs, alignWidth_outline (d + 1) c]
    have happ : ∀ xs ys, widest (xs ++ ys) = max (widest xs) (widest ys) := by
      intro xs ys
      induction xs with
      | nil => simp [widest]
      | cons x xs ih => rw [List.cons_append, widest, widest, ih, Nat.max_assoc]
    rw [happ]
    simp only [nameWidth]
    rw [Nat.mul_comm d 2]
    omega
end

theorem widest_append (xs ys : List (Nat × Str × PropNode)) : widest (xs ++ ys) = max (widest xs) (widest ys) := by
  induction xs with
  | nil => simp [widest]
  | cons x xs ih => rw [List.cons_append, widest, widest, ih, Nat.max_assoc]

theorem pad_ok {w s : Nat} (h : s ≤ w) : pad w s = .ok (blanks (w - s)) := if_pos h

theorem hasValue_or (c : PropNode) : (c.hasValue || c.kids.isEmpty) = true ↔ ¬ (c.value = [] ∧ c.kids ≠ []) := by
  unfold hasValue
  cases hv : c.value <;> cases hk : c.kids <;> simp

mutual
theorem toStream_outline (d w : Nat) : ∀ n : PropNode, widest (outline d n) ≤ w →
    toStream d w n = .ok ((outline d n).flatMap fun e => listLine w e ++ ['\n'])
  | .mk v ks a, h => by
    rw [toStream]
    have : (if w = 0 then alignWidth 2 d (.mk v ks a) else w) = w := by
      split
      · rw [alignWidth_outline]; omega
      · rfl
    rw [this]
    exact toStreamKids_outline d w ks h
theorem toStreamKids_outline (d w : Nat) : ∀ ks : Kids, widest (outlineKids d ks) ≤ w →
    toStreamKids d w ks = .ok ((outlineKids d ks).flatMap fun e => listLine w e ++ ['\n'])
  | [], _ => by rw [toStreamKids, outlineKids]; rfl
  | (k, c) :: cs, h => by
    rw [outlineKids, widest, widest_append] at h
    rw [toStreamKids, outlineKids, toStream_outline (d + 1) w c (by omega), toStreamKids_outline d w cs (by omega)]
    have hk : (blanks (d * 2) ++ k).length ≤ w := by
      have : nameWidth (d, k, c) ≤ w := by omega
      simpa [nameWidth, blanks, Nat.mul_comm] using this
    simp only [List.flatMap_cons, List.flatMap_append]
    by_cases hv : c.value = [] ∧ c.kids ≠ []
    · have hb : (c.hasValue || c.kids.isEmpty) = false := by
        rw [← Bool.not_eq_true, hasValue_or]; exact fun h => h hv
      simp only [hb, Bool.false_eq_true, if_false, Res.bind, listLine, if_pos hv]
      simp [blanks, Nat.mul_comm]
    · have hb : (c.hasValue || c.kids.isEmpty) = true := (hasValue_or c).2 hv
      simp only [hb, if_true, pad_ok hk, Res.bind, listLine, if_neg hv, fillTo]
      simp [blanks, Nat.mul_comm]
end

end PropNode

/-- **C83.** The text of a tree has a line for every node below the root, from top to bottom, indented by its depth, with all values in the
same column. Making it never fails. -/
theorem C83_listing (n : PropNode) : n.listing = .ok ((outline 0 n).flatMap fun e => listLine (widest (outline 0 n)) e ++ ['\n']) := by
  obtain ⟨v, ks, a⟩ := n
  unfold listing
  rw [toStream, if_pos rfl, alignWidth_outline]
  exact toStreamKids_outline 0 _ ks (Nat.le_refl _)

theorem Spec.widest_le {es : List (Nat × Str × PropNode)} {e} (h : e ∈ es) : nameWidth e ≤ widest es := by
  induction es with
  | nil => cases h
  | cons x xs ih =>
    rw [widest]
    rcases List.mem_cons.1 h with rfl | h
    · omega
    · have := ih h; omega

/-- All values begin in the same column: what stands before them is as long as the widest name, and the separator. -/
theorem C83_column (n : PropNode) (e) (he : e ∈ outline 0 n) (hv : ¬ (e.2.2.value = [] ∧ e.2.2.kids ≠ [])) :
    ∃ front, listLine (widest (outline 0 n)) e = front ++ " = ".toList ++ e.2.2.value ∧ front.length = widest (outline 0 n) := by
  refine ⟨_, by rw [listLine]; simp only [if_neg hv]; rfl, ?_⟩
  have := widest_le he
  simp only [nameWidth] at this
  simp [fillTo]
  omega

example : (PropNode.mk [] [("abc".toList, .mk [] [("d".toList, leaf "1".toList), ("e".toList, .empty)] false), ("f".toList, leaf "2".toList)] false).listing
    = .ok "abc\n  d = 1\n  e = \nf   = 2\n".toList := by decide +kernel

/-- The message of `log_prop_node` for a node: its line, at level `info`. A name that begins with `@` and one more character has the level
in that character, and stands without the two. -/
def Spec.logLine (w : Nat) : Nat × Str × PropNode → Int × Str
  | (d, '@' :: x :: k, c) => (schar x - '0'.toNat, listLine w (d, k, c))
  | e => (3, listLine w e)

/-- **C83.** `log_prop_node` gives a message for every node, and never fails. -/
theorem C83_log (n : PropNode) : n.logNode 0 0 = .ok ((outline 0 n).map (logLine (widest (outline 0 n)))) := by
  have key : ∀ (n : PropNode), (∀ d w, widest (outline d n) ≤ w → n.logNode d w = .ok ((outline d n).map (logLine w))) := by
    intro n
    induction n using PropNode.ind with
    | h v ks a ih =>
      intro d w hw
      rw [logNode]
      have : (if w = 0 then alignWidth 2 d (.mk v ks a) else w) = w := by
        split
        · rw [alignWidth_outline]; omega
        · rfl
      rw [this]
      clear this
      rw [outline] at hw ⊢
      induction ks with
      | nil => rw [logNodeKids, outlineKids]; rfl
      | cons p cs ihk =>
        obtain ⟨k, c⟩ := p
        rw [outlineKids, widest, widest_append] at hw
        rw [logNodeKids, outlineKids, ih k c (by simp) (d + 1) w (by omega), ihk (fun k c hm => ih k c (by simp [hm])) (by omega)]
        have hk : 2 * d + k.length ≤ w := by
          have : nameWidth (d, k, c) ≤ w := by omega
          simpa [nameWidth] using this
        -- the line for a name that is not longer
        have line : ∀ (l : Int) (k' : Str), k'.length ≤ k.length → ((if c.hasValue || c.kids.isEmpty then (pad w (blanks (d * 2) ++ k').length).bind
            fun p => .ok (p ++ " = ".toList ++ c.value) else Res.ok []).bind fun val => (Res.ok ((outline (d + 1) c).map (logLine w))).bind fun sub =>
            (Res.ok ((outlineKids d cs).map (logLine w))).bind fun rest => Res.ok ((l, blanks (d * 2) ++ k' ++ val) :: (sub ++ rest))) =
            Res.ok ((l, listLine w (d, k', c)) :: ((outline (d + 1) c).map (logLine w) ++ (outlineKids d cs).map (logLine w))) := by
          intro l k' hk'
          have hle : (blanks (d * 2) ++ k').length ≤ w := by simp [blanks]; omega
          by_cases hv : c.value = [] ∧ c.kids ≠ []
          · have hb : (c.hasValue || c.kids.isEmpty) = false := by
              rw [← Bool.not_eq_true, hasValue_or]; exact fun h => h hv
            simp only [hb, Bool.false_eq_true, if_false, Res.bind, listLine, if_pos hv]
            simp [blanks, Nat.mul_comm]
          · have hb : (c.hasValue || c.kids.isEmpty) = true := (hasValue_or c).2 hv
            simp only [hb, if_true, pad_ok hle, Res.bind, listLine, if_neg hv, fillTo]
            simp [blanks, Nat.mul_comm]
        rw [List.map_cons, List.map_append]
        by_cases hat : strBeginsWith k ['@'] = true ∧ k.length ≥ 2
        · obtain ⟨x, k', rfl⟩ : ∃ x k', k = '@' :: x :: k' := by
            obtain ⟨h1, h2⟩ := hat
            match k, h1, h2 with
            | y :: x :: k', h1, _ => exact ⟨x, k', by simp [strBeginsWith] at h1; rw [h1]⟩
          rw [if_pos hat]
          have hm : midStr ('@' :: x :: k') 2 none = .ok k' := by simp [midStr, substr]
          simp only [hm, logLine]
          simpa [Res.bind] using line (schar x - 48) k' (by simp; omega)
        · rw [if_neg hat]
          have hl : logLine w (d, k, c) = (3, listLine w (d, k, c)) := by
            unfold logLine
            split
            · next h => cases h; exact absurd ⟨by simp [strBeginsWith], by simp⟩ hat
            · rfl
          rw [hl]
          simpa [Res.bind] using line 3 k (Nat.le_refl _)
  obtain ⟨v, ks, a⟩ := n
  have e : (PropNode.mk v ks a).logNode 0 0 = (PropNode.mk v ks a).logNode 0 (widest (outline 0 (.mk v ks a))) := by
    rw [logNode, logNode, if_pos rfl, alignWidth_outline]
    split <;> rfl
  rw [e]
  exact key _ 0 _ (Nat.le_refl _)

example : (PropNode.mk [] [("@4ab".toList, leaf "1".toList), ("c".toList, leaf "2".toList)] false).logNode 0 0 =
    .ok [(4, "ab   = 1".toList), (3, "c    = 2".toList)] := by decide +kernel

/-! ### Values that have not been read -/

namespace PropNode

theorem countUnaccessed_pos (n : PropNode) : n.countUnaccessed > 0 ↔ hasUnread n = true := by
  rw [C18_count, hasUnread]
  simp [List.any_eq_true, List.countP_pos_iff]

theorem unread_nil (n : PropNode) : unread n [] = (!n.isAccessed) := by
  show (!n.value.isEmpty && !n.flag) = !(n.flag || !(!n.value.isEmpty))
  cases n.value.isEmpty <;> cases n.flag <;> rfl

theorem unaccessedLine_eq (d : Nat) (k : Str) (c : PropNode) : unaccessedLine d k c = reportLine (d, k, c) := by
  unfold unaccessedLine reportLine
  simp only [unread_nil, blanks, Nat.mul_comm d 2]
  cases h : c.isAccessed with
  | true => simp
  | false =>
    have : c.hasValue = true := by
      unfold isAccessed at h
      cases hv : c.hasValue with
      | true => rfl
      | false => rw [hv] at h; simp at h
    simp [this]

mutual
/-- The node after a report: nodes with children are marked. -/
def afterReport : PropNode → PropNode
  | .mk v ks a => .mk v (afterReportKids ks) (a || !ks.isEmpty)
def afterReportKids : Kids → Kids
  | [] => []
  | (k, c) :: cs => (k, afterReport c) :: afterReportKids cs
end

mutual
theorem unaccessedText_eq (d : Nat) : ∀ n : PropNode, unaccessedText d n =
    (((outline d n).filter fun e => hasUnread e.2.2).flatMap fun e => reportLine e ++ ['\n'], afterReport n)
  | .mk v ks a => by
    rw [unaccessedText, outline, afterReport, unaccessedTextKids_eq d ks]
    cases ks with
    | nil => simp [outlineKids, afterReportKids]
    | cons p cs => simp
theorem unaccessedTextKids_eq (d : Nat) : ∀ ks : Kids, unaccessedTextKids d ks =
    (((outlineKids d ks).filter fun e => hasUnread e.2.2).flatMap fun e => reportLine e ++ ['\n'], afterReportKids ks)
  | [] => by rw [unaccessedTextKids, outlineKids, afterReportKids]; rfl
  | (k, c) :: cs => by
    rw [unaccessedTextKids, outlineKids, afterReportKids, unaccessedText_eq (d + 1) c, unaccessedTextKids_eq d cs]
    by_cases h : hasUnread c = true
    · rw [if_pos ((countUnaccessed_pos c).2 h)]
      simp [h, unaccessedLine_eq]
    · rw [if_neg (fun h' => h ((countUnaccessed_pos c).1 h'))]
      simp [h]
end

mutual
theorem logUnaccessed_eq (d : Nat) : ∀ n : PropNode, logUnaccessed d n =
    (((outline d n).filter fun e => hasUnread e.2.2).map reportLine, afterReport n)
  | .mk v ks a => by
    rw [logUnaccessed, outline, afterReport, logUnaccessedKids_eq d ks]
    cases ks with
    | nil => simp [outlineKids, afterReportKids]
    | cons p cs => simp
theorem logUnaccessedKids_eq (d : Nat) : ∀ ks : Kids, logUnaccessedKids d ks =
    (((outlineKids d ks).filter fun e => hasUnread e.2.2).map reportLine, afterReportKids ks)
  | [] => by rw [logUnaccessedKids, outlineKids, afterReportKids]; rfl
  | (k, c) :: cs => by
    rw [logUnaccessedKids, outlineKids, afterReportKids, logUnaccessed_eq (d + 1) c, logUnaccessedKids_eq d cs]
    by_cases h : hasUnread c = true
    · rw [if_pos ((countUnaccessed_pos c).2 h)]
      simp [h, unaccessedLine_eq]
    · rw [if_neg (fun h' => h ((countUnaccessed_pos c).1 h'))]
      simp [h]
end

theorem afterReportKids_get (ks : Kids) (i : Nat) : (afterReportKids ks)[i]? = ks[i]?.map fun p => (p.1, afterReport p.2) := by
  induction ks generalizing i with
  | nil => simp [afterReportKids]
  | cons p cs ih =>
    obtain ⟨k, c⟩ := p
    rw [afterReportKids]
    cases i with
    | zero => rfl
    | succ i => simpa using ih i

theorem afterWidthKids_get (ks : Kids) (i : Nat) : (afterWidthKids ks)[i]? = ks[i]?.map fun p => (p.1, afterWidth p.2) := by
  induction ks generalizing i with
  | nil => simp [afterWidthKids]
  | cons p cs ih =>
    obtain ⟨k, c⟩ := p
    rw [afterWidthKids]
    cases i with
    | zero => rfl
    | succ i => simpa using ih i

theorem nodeAt_afterReport (p : List Nat) : ∀ n : PropNode, nodeAt (afterReport n) p = (nodeAt n p).map afterReport := by
  induction p with
  | nil => intro n; rfl
  | cons i p ih =>
    rintro ⟨v, ks, a⟩
    rw [afterReport, nodeAt, nodeAt]
    simp only [kids_mk]
    rw [afterReportKids_get]
    cases ks[i]? with
    | none => rfl
    | some q => simpa using ih q.2

theorem nodeAt_afterWidth (p : List Nat) : ∀ n : PropNode, nodeAt (afterWidth n) p = (nodeAt n p).map afterWidth := by
  induction p with
  | nil => intro n; rfl
  | cons i p ih =>
    rintro ⟨v, ks, a⟩
    rw [afterWidth, nodeAt, nodeAt]
    simp only [kids_mk]
    rw [afterWidthKids_get]
    cases ks[i]? with
    | none => rfl
    | some q => simpa using ih q.2

end PropNode

/-- **C83.** The report of unread values has a line for every node that has not been read or that leads to such a node, from top to bottom;
those that have not been read have a star, and no others. -/
theorem C83_report (n : PropNode) : (unaccessedText 0 n).1 = ((outline 0 n).filter fun e => hasUnread e.2.2).flatMap fun e => reportLine e ++ ['\n'] := by
  rw [unaccessedText_eq]

/-- The messages of `log_unaccessed` are the same lines. -/
theorem C83_report_log (n : PropNode) : (logUnaccessed 0 n).1 = ((outline 0 n).filter fun e => hasUnread e.2.2).map reportLine := by
  rw [logUnaccessed_eq]

/-- Nothing is reported exactly if everything below the root has been read. -/
theorem C83_report_empty (n : PropNode) : (unaccessedText 0 n).1 = [] ↔ ∀ e ∈ outline 0 n, hasUnread e.2.2 = false := by
  rw [C83_report, List.flatMap_eq_nil_iff]
  constructor
  · intro h e he
    cases hu : hasUnread e.2.2 with
    | false => rfl
    | true => exact absurd (h e (by simp [he, hu])) (by simp)
  · intro h e he
    rw [List.mem_filter] at he
    rw [h e he.1] at he
    exact absurd he.2 (by simp)

/-- **C83.** What a report does to the marks: values without children stay as they were. (partial: those with children) -/
theorem C83_report_keeps_partial (n : PropNode) (p : List Nat) (m : PropNode) (hm : nodeAt n p = some m) (hk : m.kids = []) :
    unread (unaccessedText 0 n).2 p = unread n p := by
  rw [unaccessedText_eq]
  unfold unread
  rw [nodeAt_afterReport, hm]
  obtain ⟨v, ks, a⟩ := m
  simp only [kids_mk] at hk
  subst hk
  simp [afterReport]

/-- **C83 is violated by nodes that have a value and children**: the report that shows them as unread marks them as read, so that the next
one does not show them. -/
theorem C83_report_violated (n : PropNode) (p : List Nat) (m : PropNode) (hm : nodeAt n p = some m) (hk : m.kids ≠ []) :
    unread (unaccessedText 0 n).2 p = false ∧ unread (logUnaccessed 0 n).2 p = false := by
  rw [unaccessedText_eq, logUnaccessed_eq]
  unfold unread
  rw [nodeAt_afterReport, hm]
  obtain ⟨v, ks, a⟩ := m
  simp only [kids_mk] at hk
  have : ks.isEmpty = false := by cases ks <;> simp_all
  simp [afterReport, this]

/-- The same tree reported twice. -/
example : let n := PropNode.mk [] [("a".toList, .mk "1".toList [("b".toList, leaf "2".toList)] false)] false
    (unaccessedText 0 n).1 = "a = 1 *\n  b = 2 *\n".toList ∧ (unaccessedText 0 (unaccessedText 0 n).2).1 = "a\n  b = 2 *\n".toList := by
  decide +kernel

/-- **C83 is violated by the listings**: `to_str` and `log_prop_node` compute the width by iterating over every node, which marks the whole
tree as read; afterwards nothing is reported. -/
theorem C83_listing_violated (n : PropNode) (p : List Nat) : unread (afterWidth n) p = false := by
  unfold unread
  rw [nodeAt_afterWidth]
  cases nodeAt n p with
  | none => rfl
  | some m => obtain ⟨v, ks, a⟩ := m; simp [afterWidth]

end Xo
