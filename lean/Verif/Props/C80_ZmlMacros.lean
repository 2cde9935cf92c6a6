import Verif.Lemmas.ZmlDoc
import Verif.Model.Include

/-!
C80: what macros, inline macros and includes in a ZML text mean, and that undefined names and unreadable files are errors.

The meaning of a document is `Spec.eval` (Verif/Spec/ZmlDoc.lean). It does not refer to the reader.
-/
namespace Xo
namespace Zml
open Spec

theorem sees_root : Sees (fun p ms => (p, ms)) false [] [] := by
  refine ⟨fun p => ?_, fun _ p ms => rfl⟩
  simp [ScopeRel]

/-- **C80 (documents).** Reading the tokens of a document gives the tree that the document describes: a macro stands for what its latest
definition in scope says, it is in scope from its definition to the end of the group, `${name}` in a text is replaced by the value of the
macro, and `<< file >>` is replaced by what is in the file. (partial: a name inside its own definition, and definitions inside
definitions, are not covered) -/
theorem C80_doc_partial (env : Env) (inc : Str → Res PropNode.Kids) (hinc : Loads env inc) (d : Doc) (hd : d.Ok false false) (text : Str)
    (ht : lexAll text = (d.toks false, .eof)) (ks : PropNode.Kids) (h : eval inc [] d = .ok ks) :
    parse env text = .ok (.mk [] ks false, false) := by
  obtain ⟨defs, hr⟩ := runs_doc hinc d hd (close := []) (a := false) (.inl rfl) (view := fun p ms => (p, ms)) (base := 0)
    (p := .empty) (rest := []) (fin := .eof) (ms := []) (f := false) (s := []) sees_root h
  have h0 : Runs env [] (fun p ms => (p, ms)) false 0 (PropNode.empty.withKids (PropNode.empty.kids ++ ks)) ⟨[], .eof, [] ++ defs, false⟩
      (.mk [] ks false, ⟨[], .eof, [], false⟩) := by
    unfold Runs
    rw [layer.eq_def]
    rfl
  have := (hr _ h0).le (n := (d.toks false).length + 1) (by simp)
  unfold parse
  rw [ht]
  simp only [List.append_nil] at this
  dsimp only
  rw [this]

/-- **C80 (errors).** A document that uses an undefined name, does not close an inline macro or includes a file that cannot be read is
not accepted: an exception is thrown, or an error is reported. -/
theorem C80_error (env : Env) (inc : Str → Res PropNode.Kids) (hinc : Loads env inc) (d : Doc) (hd : d.Ok false false) (text : Str)
    (ht : lexAll text = (d.toks false, .eof)) (h : eval inc [] d = .err) :
    (env.throws = true → parse env text = .err) ∧ ∀ t, parse env text ≠ .ok (t, false) := by
  have := fails_doc hinc d hd (close := []) (a := false) (.inl rfl) (view := fun p ms => (p, ms)) (base := 0)
    (p := .empty) (rest := []) (fin := .eof) (ms := []) (f := false) (s := []) sees_root h ((d.toks false).length + 1) (by simp)
  rw [List.append_nil] at this
  unfold parse
  rw [ht]
  dsimp only
  constructor
  · intro hth; rw [this.1 hth]
  · intro t he
    split at he
    · next p st hl =>
      have := this.2 p st hl
      simp_all
    · cases he
    · cases he
    · cases he

/-- **C80 (comments).** A text that ends inside a comment is not accepted. (partial: no token is an empty text in quotes) -/
theorem C80_unclosed_comment_partial (env : Env) (text : Str) (hb : (lexAll text).2 = .bad) (hn : [] ∉ (lexAll text).1) (t : PropNode) :
    parse env text ≠ .ok (t, false) := by
  unfold parse
  intro he
  split at he
  · next p st hl =>
    rcases layer_open hl ⟨hb, hn⟩ with h | ⟨h, -⟩
    · simp_all
    · exact h rfl
  · cases he
  · cases he
  · cases he

/-- **C80 (files).** Loading a file that includes other files gives the tree that the files describe together. Names of included files
count from the folder of the file in which they occur. -/
theorem C80_files_partial (fs : Path → Option Str) (throws : Bool) (docs : Path → Option Doc)
    (hfs : ∀ f, (fs f).isSome = (docs f).isSome)
    (hdocs : ∀ f text d, fs f = some text → docs f = some d → d.Ok false false ∧ lexAll text = (d.toks false, .eof)) :
    ∀ (n : Nat) (file : Path),
      (∀ ks, evalFile docs includePath n file = .ok ks → loadZml fs throws n file = .ok (.mk [] ks false, false)) ∧
      (evalFile docs includePath n file = .err →
        (throws = true → loadZml fs throws n file = .err) ∧ ∀ t, loadZml fs throws n file ≠ .ok (t, false)) := by
  intro n
  induction n with
  | zero => intro file; exact ⟨fun ks h => (nomatch h), fun h => (nomatch h)⟩
  | succ n ih =>
    intro file
    have hl : Loads ⟨throws, includeKids (loadZml fs throws n) file⟩ (fun f => (includePath file f).bind (evalFile docs includePath n)) := by
      intro f
      unfold includeKids
      dsimp only
      constructor
      · intro ks h
        obtain ⟨g, hg, h⟩ := bind_ok_iff.1 h
        rw [hg]
        dsimp only
        rw [(ih g).1 ks h]
        rfl
      · intro h
        rcases bind_err_iff.1 h with hg | ⟨g, hg, h⟩
        · rw [hg]
          exact ⟨fun _ => rfl, fun ks bad h => (nomatch h)⟩
        · rw [hg]
          dsimp only
          obtain ⟨h1, h2⟩ := (ih g).2 h
          constructor
          · intro ht; rw [h1 ht]
          · intro ks bad hk
            cases hr : loadZml fs throws n g with
            | ok r =>
              obtain ⟨t, b⟩ := r
              rw [hr] at hk
              cases bad with
              | true => rfl
              | false => cases hk; exact absurd hr (h2 t)
            | err => rw [hr] at hk; cases hk
            | ub => rw [hr] at hk; cases hk
            | div => rw [hr] at hk; cases hk
    rw [loadZml, evalFile]
    have h0 := hfs file
    cases hf : fs file with
    | none =>
      rw [hf] at h0
      have : docs file = none := by simpa using h0.symm
      rw [this]
      exact ⟨fun ks h => (nomatch h), fun _ => ⟨fun _ => rfl, fun t h => (nomatch h)⟩⟩
    | some text =>
      rw [hf] at h0
      obtain ⟨d, hd⟩ := Option.isSome_iff_exists.1 h0.symm
      obtain ⟨h1, h2⟩ := hdocs file text d hf hd
      rw [hd]
      exact ⟨fun ks h => C80_doc_partial _ _ hl d h1 text h2 ks h, fun h => C80_error _ _ hl d h1 text h2 h⟩

/-- **C80 (files that are missing).** Loading a file that does not exist is an error, with and without `error_code`. -/
theorem C80_missing_file (fs : Path → Option Str) (throws : Bool) (n : Nat) (file : Path) (h : fs file = none) :
    loadZml fs throws (n + 1) file = .err := by
  rw [loadZml, h]

/-! ### The meaning, in special cases -/

/-- The latest definition of a name is the one that counts. -/
theorem C80_latest (s : Scope) (name : Str) (n : PropNode) : lookup ((name, some n) :: s) name = .ok n := by
  simp [lookup, Res.ofOptionUb]

/-- A definition does not change the meaning of other names. -/
theorem C80_other (s : Scope) (name other : Str) (n : Option PropNode) (h : name ≠ other) :
    lookup ((name, n) :: s) other = lookup s other := by
  simp [lookup, h]

/-- A definition in a group does not reach behind the group. -/
theorem C80_scope (inc : Str → Res PropNode.Kids) (s : Scope) (label sep : Str) (arr : Bool) (body rest : Doc) (b ks : PropNode.Kids)
    (hb : eval inc s body = .ok b) (hr : eval inc s rest = .ok ks) :
    eval inc s (.group label sep arr body rest) = .ok ((label, .mk [] b false) :: ks) := by
  simp [eval, hb, hr, Res.bind]

/-- A text without `${` stands for itself. -/
theorem C80_plain (s : Scope) (t : Str) (h : ∀ a b, t ≠ a ++ '$' :: '{' :: b) : evalVal s (.text t) = .ok (.mk t [] false) := by
  have : ∀ t : Str, (∀ a b, t ≠ a ++ '$' :: '{' :: b) → ∀ look, expand look none t = .ok t := by
    intro t
    induction t with
    | nil => intro _ _; rfl
    | cons c r ih =>
      intro h look
      have hr : ∀ a b, r ≠ a ++ '$' :: '{' :: b := fun a b e => h (c :: a) b (by rw [e]; rfl)
      rw [expand]
      · rw [ih hr]; rfl
      · intro r' hc he
        exact h [] r' (by rw [hc, he]; rfl)
  simp [evalVal, this t h, Res.bind]

/-- An inline macro stands for the value of the macro, and what is before and behind it stays. -/
theorem C80_inline (s : Scope) (a name b : Str) (n : PropNode) (v : Str) (ha : ∀ x y, a ≠ x ++ '$' :: '{' :: y)
    (hn : '}' ∉ name) (hl : lookup s ('$' :: name) = .ok n) (hb : evalVal s (.text b) = .ok (.mk v [] false)) :
    evalVal s (.text (a ++ '$' :: '{' :: name ++ '}' :: b)) = .ok (.mk (a ++ n.value ++ v) [] false) := by
  have hb' : expand (fun n => (lookup s ('$' :: n)).map PropNode.value) none b = .ok v := by
    unfold evalVal at hb
    obtain ⟨w, hw, h⟩ := bind_ok_iff.1 hb
    cases h
    exact hw
  have h1 : ∀ (name pre : Str), '}' ∉ name → lookup s ('$' :: (pre ++ name)) = .ok n →
      expand (fun n => (lookup s ('$' :: n)).map PropNode.value) (some pre) (name ++ '}' :: b) = .ok (n.value ++ v) := by
    intro name
    induction name with
    | nil =>
      intro pre _ hl
      rw [List.nil_append, expand, if_pos rfl]
      rw [List.append_nil] at hl
      rw [hl, hb']
      rfl
    | cons c r ih =>
      intro pre hm hl
      rw [List.cons_append, expand, if_neg (fun e : c = '}' => hm (e ▸ List.mem_cons_self))]
      exact ih _ (fun h => hm (List.mem_cons_of_mem _ h)) (by rw [List.append_assoc]; exact hl)
  have h2 : ∀ a : Str, (∀ x y, a ≠ x ++ '$' :: '{' :: y) →
      expand (fun n => (lookup s ('$' :: n)).map PropNode.value) none (a ++ '$' :: '{' :: name ++ '}' :: b) = .ok (a ++ n.value ++ v) := by
    intro a
    induction a with
    | nil =>
      intro _
      show expand _ none ('$' :: '{' :: (name ++ '}' :: b)) = _
      rw [expand, h1 name [] hn hl]
      rfl
    | cons c r ih =>
      intro h
      show expand _ none (c :: (r ++ '$' :: '{' :: name ++ '}' :: b)) = _
      rw [expand]
      · rw [ih (fun x y e => h (c :: x) y (by rw [e]; rfl))]
        rfl
      · intro r' hc he
        cases r with
        | nil => simp at he
        | cons d r =>
          simp only [List.cons_append, List.cons.injEq] at he
          exact h [] r (by rw [hc, he.1]; rfl)
  unfold evalVal
  dsimp only
  rw [h2 a ha]
  rfl

/-! ### Cases -/

/-- There are no files. -/
theorem loads_none {throws : Bool} : Loads ⟨throws, fun _ => .err⟩ (fun _ => .err) :=
  fun _ => ⟨fun _ h => (by cases h), fun _ => ⟨fun _ => rfl, fun _ _ h => by cases h⟩⟩

/-- `$m = 1 a = $m b { $m = 2 c = "x${m}y" } d = $m` -/
example : parse ⟨true, fun _ => .err⟩ "$m = 1 a = $m b { $m = 2 c = \"x${m}y\" } d = $m".toList =
    .ok (.mk [] [("a".toList, .mk "1".toList [] false),
      ("b".toList, .mk [] [("c".toList, .mk "x2y".toList [] false)] false), ("d".toList, .mk "1".toList [] false)] false, false) := by
  refine C80_doc_partial _ (fun _ => .err) loads_none
    (.define "$m".toList "=".toList (.text "1".toList) (.leaf "a".toList "=".toList (.copy "$m".toList)
      (.group "b".toList [] false (.define "$m".toList "=".toList (.text "2".toList) (.leaf "c".toList "=".toList (.text "x${m}y".toList) .nil))
        (.leaf "d".toList "=".toList (.copy "$m".toList) .nil)))) ?_ _ (by decide +kernel) _ rfl
  simp [Doc.Ok, LabelOk, SepOk, Val.Ok]

/-- `a = $m` -/
example : parse ⟨true, fun _ => .err⟩ "a = $m".toList = .err :=
  (C80_error _ (fun _ => .err) loads_none
    (.leaf "a".toList "=".toList (.copy "$m".toList) .nil) (by simp [Doc.Ok, LabelOk, SepOk, Val.Ok]) _ (by decide +kernel)
    rfl).1 rfl

example (t : PropNode) : parse ⟨false, fun _ => .err⟩ "a = 1 /* b".toList ≠ .ok (t, false) :=
  C80_unclosed_comment_partial _ _ (by decide +kernel) (by decide +kernel) t

/-- Two files, where `d/a` includes `b`, which is `d/b`. -/
example : loadZml (fun p => if p = "d/a".toList then some "x = 1 << b >> z = 3".toList else if p = "d/b".toList then some "y = 2".toList
    else none) true 2 "d/a".toList = .ok (.mk [] [("x".toList, .mk "1".toList [] false), ("y".toList, .mk "2".toList [] false),
      ("z".toList, .mk "3".toList [] false)] false, false) := by
  refine (C80_files_partial _ true (fun p => if p = "d/a".toList then some (.leaf "x".toList "=".toList (.text "1".toList)
      (.incl "b".toList (.leaf "z".toList "=".toList (.text "3".toList) .nil))) else if p = "d/b".toList then
      some (.leaf "y".toList "=".toList (.text "2".toList) .nil) else none) ?_ ?_ 2 _).1 _ rfl
  · intro f; split <;> [rfl; split <;> rfl]
  · intro f text d h1 h2
    split at h1
    · next hf =>
      rw [if_pos hf] at h2
      cases h1; cases h2
      exact ⟨by simp [Doc.Ok, LabelOk, SepOk, Val.Ok], by decide +kernel⟩
    · next hf =>
      rw [if_neg hf] at h2
      split at h1
      · next hf =>
        rw [if_pos hf] at h2
        cases h1; cases h2
        exact ⟨by simp [Doc.Ok, LabelOk, SepOk, Val.Ok], by decide +kernel⟩
      · cases h1

/-! ### Disagreements -/

/-- **C80 is violated** for children of a macro with a value: in `$m = v { ... }` they are added to the item before, and without an error.
Here `$m` does not get the child `x`, but `a` does. -/
theorem C80_macro_children_violated (throws : Bool) :
    readsAs (parse ⟨throws, fun _ => .err⟩ "a = 1 $m = 2 { x = 3 } b = $m".toList)
      (.mk [] [("a".toList, .mk "1".toList [("x".toList, .mk "3".toList [] false)] false), ("b".toList, .mk "2".toList [] false)] false) =
        true := by
  cases throws <;> decide +kernel

/-- **C80 is violated** by an empty text in quotes in the place of a label: the rest of the text is ignored, and no error is reported. -/
theorem C80_empty_label_violated (env : Env) (text : Str) (ts : List Str) (fin : LexEnd) (h : lexAll text = ([] :: ts, fin)) :
    parse env text = .ok (.empty, false) := by
  unfold parse
  rw [h]
  rfl

example : parse ⟨true, fun _ => .err⟩ "\"\" a = 1 } ] /* ".toList = .ok (.empty, false) :=
  C80_empty_label_violated _ _ ["a".toList, "=".toList, "1".toList, "}".toList, "]".toList] .bad (by decide +kernel)

/-- **C80 is violated** by definitions inside the definition of a macro: the reference to the macro that is read may dangle. -/
theorem C80_nested_definition_violated (env : Env) : parse env "$m { $k = 1 x = $k }".toList = .ub := by
  unfold parse
  rw [show lexAll "$m { $k = 1 x = $k }".toList = (["$m".toList, "{".toList, "$k".toList, "=".toList, "1".toList, "x".toList, "=".toList,
    "$k".toList, "}".toList], .eof) by decide +kernel]
  rfl

end Zml
end Xo
