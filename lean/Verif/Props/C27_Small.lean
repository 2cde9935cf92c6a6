import Verif.Props.C78_GeomValues
import Verif.Props.C45_SmartEnum
import Verif.Props.C60_Range
import Verif.Props.C113_TestRun
import Verif.Props.C81_NodeQuery
import Verif.Props.C66_Includes
import Verif.Props.C68_ContainerTools
import Verif.Props.C83_Listings

/-!
Small functions and branches of several properties (C27, C45, C60, C66, C68, C78, C81, C83, C113) that were found by editing the
model: an edit of each of them left the other theorems provable.
-/
namespace Xo

/-- **C27, single characters.** `replace_char` changes exactly the characters that are equal to the given one. -/
theorem C27_replace_char (s : Str) (a b : Char) : (replaceChar s a b).length = s.length ∧
    ∀ (i : Nat) (c : Char), s[i]? = some c → (replaceChar s a b)[i]? = some (if c = a then b else c) := by
  refine ⟨by simp [replaceChar], fun i c h => ?_⟩
  simp [replaceChar, h]

/-- Afterwards the character does not occur any more, and a second call changes nothing. -/
theorem C27_replace_char_gone (s : Str) (a b : Char) (h : a ≠ b) : a ∉ replaceChar s a b ∧
    replaceChar (replaceChar s a b) a b = replaceChar s a b := by
  have h1 : a ∉ replaceChar s a b := by
    intro hm
    obtain ⟨c, _, hc⟩ := List.mem_map.1 hm
    by_cases e : c = a
    · rw [if_pos e] at hc; exact h hc.symm
    · rw [if_neg e] at hc; exact e hc
  refine ⟨h1, ?_⟩
  conv_rhs => rw [← List.map_id (replaceChar s a b)]
  refine List.map_congr_left fun c hc => ?_
  by_cases e : c = a
  · subst e; exact absurd hc h1
  · simp [e]

example : replaceChar "a.b.c".toList '.' '/' = "a/b/c".toList := by decide

/-- **C45, blanks.** The words of a stream are separated by the six blank characters of the "C" locale and by no others. -/
theorem C45_blank (c : Char) : SmartEnum.isBlank c = true ↔ c.toNat = 32 ∨ (9 ≤ c.toNat ∧ c.toNat ≤ 13) := by
  have h : ∀ (n : Nat) (d : Char), d.toNat = n → (c = d ↔ c.toNat = n) := by
    rintro n d rfl
    exact ⟨fun e => by rw [e], fun e => Char.ext (UInt32.toNat_inj.1 e)⟩
  simp only [SmartEnum.isBlank, Bool.or_eq_true, beq_iff_eq, h 32 ' ' rfl, h 9 '\t' rfl, h 10 '\n' rfl, h 13 '\r' rfl, h 11 '\x0b' rfl,
    h 12 '\x0c' rfl]
  omega

/-- **C60, `it++`.** The iterator goes one step on. -/
theorem C60_frange_post_increment_step (r : Range.FRange) (step : Rat) : (r.postInc step).1 = step + 1 := rfl

/-- **C66, malformed includes.** Loading throws if an include node has no file name, or a `merge_children` that is not a truth value, or if the
included file does not have exactly one node. -/
theorem C66_include_malformed (fs : Path → Out PropNode) (dir : Str) (n : Nat) (file : Path) (v : Str) (c : PropNode) (rs : PropNode.Kids)
    (a : Bool) (hf : fs file = .ok (.mk v ((dir, c) :: rs) a)) :
    (c.tryGetChild "file".toList = none → loadFileWithInclude fs dir (n + 1) file = .err) ∧
    (∀ f m g, c.tryGetChild "file".toList = some f → file.parentPath.slash f.value = .ok g →
      (c.tryGetChild "merge_children".toList = some m ∧ strToBool m.value = none → loadFileWithInclude fs dir (n + 1) file = .err)) ∧
    (∀ f g v' ks a', c.tryGetChild "file".toList = some f → file.parentPath.slash f.value = .ok g →
      c.tryGetChild "merge_children".toList = none → fs g = .ok (.mk v' ks a') → (∀ e ∈ ks, e.1 ≠ dir ∧ e.2.kids = []) → ks.length ≠ 1 →
      ks.length ≤ n → loadFileWithInclude fs dir (n + 1) file = .err) := by
  have key : ∀ r, resolveKids (loadInclude fs dir (n + 1) 99) dir file (n + 1) [] ((dir, c) :: rs) = r → r = .err →
      loadFileWithInclude fs dir (n + 1) file = .err := by
    intro r h1 h2
    show loadInclude fs dir (n + 1) (99 + 1) file = .err
    rw [loadInclude, hf]
    show (match resolveKids (loadInclude fs dir (n + 1) 99) dir file (n + 1) [] ((dir, c) :: rs) with
      | .ok ks => Out.ok ((PropNode.withKids (.mk v ((dir, c) :: rs) a) ks).setAccessedRec false)
      | .err => .err | .ub => .ub | .div => .div) = .err
    rw [h1, h2]
  refine ⟨fun h => ?_, ?_, ?_⟩
  · refine key _ rfl ?_
    rw [resolveKids, if_pos rfl]
    have : includeInfo file c = .err := by simp only [includeInfo, h]
    rw [this]
  · rintro f m g h1 h2 ⟨h3, h4⟩
    refine key _ rfl ?_
    rw [resolveKids, if_pos rfl]
    have : includeInfo file c = .err := by simp only [includeInfo, h1, h2, h3, h4]
    rw [this]
  · intro f g v' ks a' h1 h2 h3 h4 h5 h6 h7
    refine key _ rfl ?_
    rw [resolveKids, if_pos rfl]
    have : includeInfo file c = .ok (g, false) := by simp only [includeInfo, h1, h2, h3]
    rw [this]
    have hk : ∀ (load : Path → Out PropNode) (ks : PropNode.Kids) (m : Nat) (done : PropNode.Kids), (∀ e ∈ ks, e.1 ≠ dir ∧ e.2.kids = []) →
        ks.length < m → ∃ l, resolveKids load dir g m done ks = .ok l ∧ l.length = done.length + ks.length := by
      intro load ks
      induction ks with
      | nil =>
        intro m done _ hm
        obtain ⟨m, rfl⟩ : ∃ k, m = k + 1 := ⟨m - 1, by simp only [List.length_nil] at hm; omega⟩
        exact ⟨done, rfl, rfl⟩
      | cons e ks ih =>
        intro m done he hm
        obtain ⟨e1, e2⟩ := e
        obtain ⟨m, rfl⟩ : ∃ k, m = k + 2 := ⟨m - 2, by simp only [List.length_cons] at hm; omega⟩
        have hd := he (e1, e2) (by simp)
        obtain ⟨l, hl1, hl2⟩ := ih (m + 1) (done ++ [(e1, e2.withKids [])]) (fun x hx => he x (by simp [hx]))
          (by simp only [List.length_cons] at hm; omega)
        refine ⟨l, ?_, by simp only [List.length_append, List.length_cons, List.length_nil] at hl2 ⊢; omega⟩
        rw [resolveKids, if_neg hd.1, hd.2]
        exact hl1
    obtain ⟨l, hl1, hl2⟩ := hk (loadInclude fs dir (n + 1) 98) ks (n + 1) [] h5 (by omega)
    have hl : loadInclude fs dir (n + 1) 99 g = .ok ((PropNode.withKids (.mk v' ks a') l).setAccessedRec false) := by
      show loadInclude fs dir (n + 1) (98 + 1) g = _
      rw [loadInclude, h4]
      show (match resolveKids (loadInclude fs dir (n + 1) 98) dir g (n + 1) [] ks with
        | .ok ks => Out.ok ((PropNode.withKids (.mk v' _ a') ks).setAccessedRec false)
        | .err => .err | .ub => .ub | .div => .div) = _
      rw [hl1]
    show (match loadInclude fs dir (n + 1) 99 g with
      | .ok inc => match inc.kids with
        | [e] => resolveKids (loadInclude fs dir (n + 1) 99) dir file n [] (e :: rs)
        | _ => Out.err
      | .err => .err | .ub => .ub | .div => .div) = .err
    rw [hl]
    have h8 : ∀ l : PropNode.Kids, (PropNode.setAccessedRecKids false l).length = l.length := by
      intro l
      induction l with
      | nil => rfl
      | cons e l ih => obtain ⟨k, c⟩ := e; simp [PropNode.setAccessedRecKids, ih]
    have h9 : ((PropNode.withKids (.mk v' ks a') l).setAccessedRec false).kids = PropNode.setAccessedRecKids false l := rfl
    simp only [h9]
    have h10 := h8 l
    rw [hl2] at h10
    rcases hx : PropNode.setAccessedRecKids false l with _ | ⟨e, _ | ⟨e', es⟩⟩
    · rfl
    · rw [hx] at h10
      simp only [List.length_cons, List.length_nil] at h10
      omega
    · rfl

/-- Non-vacuity: the second file has two nodes. -/
example : loadFileWithInclude (fun f => if f = "a.zml".toList then
      .ok (.mk [] [("INCLUDE".toList, .mk [] [("file".toList, .mk "b.zml".toList [] false)] false)] false)
    else .ok (.mk [] [("x".toList, .empty), ("y".toList, .empty)] false)) "INCLUDE".toList 5 "a.zml".toList = .err :=
  (C66_include_malformed _ _ 4 _ [] _ [] false rfl).2.2 (.mk "b.zml".toList [] false) "b.zml".toList [] _ false rfl rfl rfl rfl
    (by decide) (by decide) (by decide)

/-- **C68, views.** Looking at the end of a view of the whole container is undefined; elsewhere the element is given. -/
theorem C68_view_element {α : Type} (v : Cont.ViewIf α) (pos : Nat) : (∀ h : pos < v.elems.length, v.deref pos = .ok v.elems[pos]) ∧
    (v.elems.length ≤ pos → v.deref pos = .ub) := by
  unfold Cont.ViewIf.deref
  refine ⟨fun h => by simp [h], fun h => by simp [h]⟩

/-- **C78, capsule.** With numbers for which the operations are exact, the height of a capsule given by its total length is the length
without the two half spheres; it is negative if the length is too short for these. -/
theorem C78_capsule_exact (r l : Rat) (h0 : 0 < r) (hm : Spec.Binary 24 (-149) 128 (2 * r)) (hd : Spec.Binary 24 (-149) 128 |l - 2 * r|) :
    (l ≠ 2 * r → (Conv.flScal Num.binary32).sub (.fin false l) ((Conv.flScal Num.binary32).two (.fin false r))
      = .fin (decide (l < 2 * r)) |l - 2 * r|) ∧
    (l = 2 * r → (Conv.flScal Num.binary32).sub (.fin false l) ((Conv.flScal Num.binary32).two (.fin false r)) = .fin false 0) := by
  have e1 : Num.rnd Num.binary32 (2 * r) = some (2 * r) := Num.rnd_exact Num.binary32_ok (by positivity) hm
  have e2 : (Conv.flScal Num.binary32).two (.fin false r) = .fin false (2 * r) := by
    show Conv.flScale Num.binary32 2 (.fin false r) = _
    simp only [Conv.flScale, Num.roundFl, e1]
  rw [e2]
  show (l ≠ 2 * r → Conv.flSub Num.binary32 (.fin false l) (.fin false (2 * r)) = _) ∧
    (l = 2 * r → Conv.flSub Num.binary32 (.fin false l) (.fin false (2 * r)) = _)
  constructor
  · intro h
    have h1 : l - 2 * r ≠ 0 := sub_ne_zero.2 h
    have e3 : Num.rnd Num.binary32 |l - 2 * r| = some |l - 2 * r| := Num.rnd_exact Num.binary32_ok (abs_pos.2 h1) hd
    have e4 : decide (l - 2 * r < 0) = decide (l < 2 * r) := by simp only [sub_neg]
    simp only [Conv.flSub, Conv.flVal, Bool.false_eq_true, if_false, h1, Num.roundFl, e3, e4]
  · intro h
    simp [Conv.flSub, Conv.flVal, h]

/-- **C81, keys.** Asking for the key of a child that does not exist throws; otherwise its key is given. -/
theorem C81_get_key (v : Str) (ks : PropNode.Kids) (a : Bool) (i : Nat) :
    (ks.length ≤ i → (PropNode.mk v ks a).keyAt [] i = .err) ∧
    (∀ h : i < ks.length, (PropNode.mk v ks a).keyAt [] i = .ok (ks[i]'h).1) := by
  simp only [PropNode.keyAt, PropNode.at?, PropNode.kids]
  refine ⟨fun h => if_neg (by omega), fun h => ?_⟩
  refine (if_pos h).trans ?_
  simp [h, Res.ofOptionUb]

/-- **C83, given widths.** With a width that is too small for the name of a value, listing throws. -/
theorem C83_narrow (v w k : Str) (a b : Bool) (cs : PropNode.Kids) (align : Nat) (h0 : align ≠ 0) (h : align < k.length) :
    PropNode.toStream 0 align (.mk v ((k, .mk w [] a) :: cs) b) = .err := by
  rw [PropNode.toStream, if_neg h0, PropNode.toStreamKids]
  have : PropNode.pad align (PropNode.blanks (0 * 2) ++ k).length = .err := by
    unfold PropNode.pad
    rw [if_neg]
    simp [PropNode.blanks]
    omega
  simp only [this]
  simp [PropNode.kids]
  rfl

/-- **C113, last line.** One after the other, the last line is the message of success exactly if no test failed. -/
theorem C113_last_line_sequential (debug : Bool) (cs : List TRun.Case) (n : Nat) (h : (TRun.runTests debug cs).2 = some n) :
    ∃ out l, (TRun.runTests debug cs).1 = out ++ [l] ∧ (n = 0 ↔ l.level = .info) ∧ (n ≠ 0 ↔ l.level = .error) := by
  unfold TRun.runTests at h ⊢
  rcases hq : TRun.runAll debug cs [] {} 0 with ⟨out, _ | ⟨total, failed⟩⟩
  · rw [hq] at h; cases h
  · rw [hq] at h
    simp only [Option.some.injEq] at h
    subst h
    refine ⟨out, _, rfl, ?_⟩
    by_cases e : failed = 0
    · simp [e]
    · simp [e]

end Xo
