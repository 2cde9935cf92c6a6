import Verif.Model.Listing
import Verif.Lemmas.ZmlWrite
import Verif.Props.C80_ZmlMacros

/-!
C84: the text of a node on one line. The text that `make_str_from_prop_node` gives is the value of a ZML item: reading it gives the node
back, provided that names and values are words. The function never writes quotation marks.
-/
namespace Xo
namespace Zml
namespace Spec
mutual
/-- No name or value needs quotation marks. -/
def Words : PropNode → Prop
  | .mk v ks _ => (v = [] ∨ ¬ Quoted v) ∧ WordsKids ks
def WordsKids : PropNode.Kids → Prop
  | [] => True
  | (k, c) :: cs => (k = [] ∨ ¬ Quoted k) ∧ Words c ∧ WordsKids cs
end
end Spec
open Spec PropNode

mutual
/-- The document that the text stands for: an item, before other items. -/
def docOf (arr : Bool) (k : Str) (rest : Doc) : PropNode → Doc
  | .mk v ks _ =>
    if ks.isEmpty then .leaf k ['='] (.text v) rest
    else if v.isEmpty then .group k ['='] (ks.all fun p => p.1.isEmpty) (docKids (ks.all fun p => p.1.isEmpty) ks) rest
    else .extend k ['='] (.text v) (ks.all fun p => p.1.isEmpty) (docKids (ks.all fun p => p.1.isEmpty) ks) rest
def docKids (arr : Bool) : PropNode.Kids → Doc
  | [] => .nil
  | (k, c) :: cs => docOf arr k (docKids arr cs) c
end

/-- The tokens of a node, without its name. -/
def nodeToks : PropNode → List Str
  | .mk v ks _ =>
    if ks.isEmpty then [v]
    else (if v.isEmpty then [] else [v]) ++ bracket (ks.all fun p => p.1.isEmpty) :: ((docKids (ks.all fun p => p.1.isEmpty) ks).toks
      (ks.all fun p => p.1.isEmpty) ++ [unbracket (ks.all fun p => p.1.isEmpty)])

theorem SafeText.of_word {s : Str} (h : SafeText s) (hq : ¬ Quoted s) : tryQuoted special s = s := by
  have := (needsQuotes_iff h.1).not.2 hq
  unfold tryQuoted
  rw [if_neg (by simpa using this)]

theorem docOf_toks {arr : Bool} {k : Str} {rest : Doc} {c : PropNode} (h : SafeItem arr k c) :
    (docOf arr k rest c).toks arr = (if arr then [] else [k, ['=']]) ++ nodeToks c ++ rest.toks arr := by
  obtain ⟨v, ks, a⟩ := c
  rw [docOf, nodeToks]
  cases hks : ks.isEmpty with
  | true => cases arr <;> simp [Doc.toks, sepToks, Val.tok]
  | false =>
    cases hv : v.isEmpty with
    | true => cases arr <;> simp [Doc.toks, sepToks]
    | false =>
      cases arr with
      | true =>
        rw [SafeItem] at h
        have : ks ≠ [] := by rintro rfl; simp at hks
        simp only [if_neg this] at h
        rw [h.1.2] at hv
        cases hv
      | false => simp [Doc.toks, sepToks, Val.tok]

theorem safeItem_mk {arr : Bool} {k v : Str} {ks : PropNode.Kids} {a : Bool} : SafeItem arr k (.mk v ks a) ↔
    ((match arr with
      | true => k = [] ∧ (if ks = [] then SafeElem v else v = [])
      | false => SafeKey k ∧ SafeValue v) ∧ SafeKids (ks.all fun p => p.1.isEmpty) ks) := by
  cases arr <;> rw [SafeItem]

theorem text_ok {arr : Bool} {v : Str} (h : SafeValue v) (he : arr = true → SafeElem v) : (Val.text v).Ok arr := by
  obtain ⟨h1, h2, h3, h4, h5, h6⟩ := h
  refine ⟨h2, fun h => .inl (h3 h), h5, h6, fun ha => ?_⟩
  obtain ⟨-, e1, e2, e3⟩ := he ha
  exact ⟨e1, e2, e3⟩

theorem label_ok {k : Str} (h : SafeKey k) : LabelOk k := ⟨h.2.1, h.2.2⟩

theorem docOf_ok (c : PropNode) : ∀ (arr : Bool) (k : Str) (rest : Doc), SafeItem arr k c → rest.Ok arr false → (docOf arr k rest c).Ok arr false := by
  induction c using PropNode.ind with
  | h v ks a ih =>
    intro arr k rest hs hr
    have hb : ∀ (m : Bool) (l : PropNode.Kids), (∀ k c, (k, c) ∈ l → (k, c) ∈ ks) → SafeKids m l → (docKids m l).Ok m false := by
      intro m l
      induction l with
      | nil => intro _ _; rw [docKids]; trivial
      | cons e l ihl =>
        obtain ⟨k', c'⟩ := e
        intro hsub hsk
        rw [SafeKids] at hsk
        rw [docKids]
        exact ih k' c' (hsub _ _ (by simp)) m k' _ hsk.1 (ihl (fun k c hm => hsub k c (by simp [hm])) hsk.2)
    rw [safeItem_mk] at hs
    obtain ⟨h1, h2⟩ := hs
    have hb := hb _ ks (fun _ _ h => h) h2
    rw [docOf]
    cases hks : ks.isEmpty with
    | true =>
      have e : ks = [] := by simpa using hks
      rw [if_pos rfl, Doc.Ok]
      cases arr with
      | true => simp only [if_pos e] at h1; exact ⟨h1.1, text_ok h1.2.1 (fun _ => h1.2), hr⟩
      | false => exact ⟨⟨label_ok h1.1, .inl rfl⟩, text_ok h1.2 (by simp), hr⟩
    | false =>
      have e : ks ≠ [] := by rintro rfl; simp at hks
      rw [if_neg (by simp)]
      cases hv : v.isEmpty with
      | true =>
        rw [if_pos rfl, Doc.Ok]
        cases arr with
        | true => exact ⟨h1.1, hb, hr⟩
        | false => exact ⟨⟨label_ok h1.1, .inr (.inl rfl)⟩, hb, hr⟩
      | false =>
        rw [if_neg (by simp), Doc.Ok]
        cases arr with
        | true => simp only [if_neg e] at h1; rw [h1.2] at hv; cases hv
        | false => exact ⟨rfl, label_ok h1.1, .inl rfl, text_ok h1.2 (by simp), hb, hr⟩

theorem docOf_eval (inc : Str → Res PropNode.Kids) (c : PropNode) : ∀ (arr : Bool) (k : Str) (rest : Doc) (rs : PropNode.Kids), SafeItem arr k c →
    eval inc [] rest = .ok rs → eval inc [] (docOf arr k rest c) = .ok ((k, setAccessedRec false c) :: rs) := by
  induction c using PropNode.ind with
  | h v ks a ih =>
    intro arr k rest rs hs hr
    have hb : ∀ (m : Bool) (l : PropNode.Kids), (∀ k c, (k, c) ∈ l → (k, c) ∈ ks) → SafeKids m l →
        eval inc [] (docKids m l) = .ok (setAccessedRecKids false l) := by
      intro m l
      induction l with
      | nil => intro _ _; rw [docKids, setAccessedRecKids]; rfl
      | cons e l ihl =>
        obtain ⟨k', c'⟩ := e
        intro hsub hsk
        rw [SafeKids] at hsk
        rw [docKids, setAccessedRecKids]
        exact ih k' c' (hsub _ _ (by simp)) m k' _ _ hsk.1 (ihl (fun k c hm => hsub k c (by simp [hm])) hsk.2)
    rw [safeItem_mk] at hs
    obtain ⟨h1, h2⟩ := hs
    have hb := hb _ ks (fun _ _ h => h) h2
    have hv' : v ≠ [] ∨ ks = [] → evalVal [] (.text v) = .ok (.mk v [] false) := by
      intro hne
      apply C80_plain
      cases arr with
      | false => exact h1.2.2.2.2.1
      | true =>
        rcases hne with h | h
        · by_cases hk : ks = []
          · simp only [if_pos hk] at h1; exact h1.2.1.2.2.2.1
          · simp only [if_neg hk] at h1; exact (h h1.2).elim
        · simp only [if_pos h] at h1; exact h1.2.1.2.2.2.1
    rw [docOf, setAccessedRec]
    cases hks : ks.isEmpty with
    | true =>
      have e : ks = [] := by simpa using hks
      rw [if_pos rfl, eval, hv' (.inr e), hr, e]
      rfl
    | false =>
      rw [if_neg (by simp)]
      cases hv : v.isEmpty with
      | true =>
        have e : v = [] := by simpa using hv
        rw [if_pos rfl, eval, hb, hr, e]
        rfl
      | false =>
        have e : v ≠ [] := by rintro rfl; simp at hv
        rw [if_neg (by simp), eval, hb, hr, hv' (.inl e)]
        rfl

theorem makeStr_lex (c : PropNode) : ∀ (arr : Bool) (k : Str), SafeItem arr k c → Words c → NoEmpty c → ∀ r, Bnd0 r → Lx (makeStr c) (nodeToks c) r := by
  induction c using PropNode.ind with
  | h v ks a ih =>
    intro arr k hs hw hn r hr
    have hst : v ≠ [] → SafeText v := by
      intro hne
      rw [safeItem_mk] at hs
      cases arr with
      | false => exact hs.1.2.1
      | true =>
        by_cases hk : ks = []
        · have := hs.1; simp only [if_pos hk] at this; exact this.2.1.1
        · have := hs.1; simp only [if_neg hk] at this; exact (hne this.2).elim
    rw [safeItem_mk] at hs
    rw [Words] at hw
    rw [NoEmpty] at hn
    -- a value
    have hval : v ≠ [] → ∀ r, Bnd0 r → Lx v [v] r := by
      intro hne r hr
      have hq : ¬ Quoted v := by rcases hw.1 with h | h; exact (hne h).elim; exact h
      have := Lx.piece (hst hne) hr.bnd (fun e => (hne e).elim)
      rwa [SafeText.of_word (hst hne) hq] at this
    have hb : ∀ (m : Bool) (l : PropNode.Kids), (∀ k c, (k, c) ∈ l → (k, c) ∈ ks) → SafeKids m l → WordsKids l → NoEmptyKids l → ∀ r,
        Lx (makeStrKids m l) ((docKids m l).toks m) (' ' :: r) := by
      intro m l
      induction l with
      | nil => intro _ _ _ _ r; rw [docKids, makeStrKids]; exact Lx.nil _
      | cons e l ihl =>
        obtain ⟨k', c'⟩ := e
        intro hsub hsk hwk hnk r
        rw [SafeKids] at hsk
        rw [WordsKids] at hwk
        rw [NoEmptyKids] at hnk
        rw [docKids, docOf_toks hsk.1, makeStrKids]
        have hrest := ihl (fun k c hm => hsub k c (by simp [hm])) hsk.2 hwk.2.2 hnk.2 r
        have hstart : Bnd0 (makeStrKids m l ++ ' ' :: r) := by
          cases l with
          | nil => exact bnd0_sp r
          | cons e l => obtain ⟨k2, c2⟩ := e; rw [makeStrKids]; cases m <;> exact bnd0_sp _
        have hnode := ih k' c' (hsub _ _ (by simp)) m k' hsk.1 hwk.2.1 hnk.1 _ hstart
        have h2 := Lx.append hnode hrest
        rw [List.append_assoc, List.append_assoc]
        refine Lx.append ?_ h2
        cases m with
        | true => exact Lx.delim (by decide) _
        | false =>
          simp only [Bool.false_eq_true, if_false]
          obtain ⟨v', ks', a'⟩ := c'
          have hsk1 := hsk.1
          rw [SafeItem] at hsk1
          have hkey : SafeKey k' := hsk1.1.1
          have hkne : k' ≠ [] := SafeKey.ne hkey
          have hq : ¬ Quoted k' := by rcases hwk.1 with h | h; exact (hkne h).elim; exact h
          have e1 : Lx k' [k'] (" = ".toList ++ ((makeStr (.mk v' ks' a') ++ makeStrKids false l) ++ ' ' :: r)) := by
            have := Lx.piece (r := " = ".toList ++ ((makeStr (.mk v' ks' a') ++ makeStrKids false l) ++ ' ' :: r)) hkey.1 (bnd0_sp _).bnd
              (fun e => (hkne e).elim)
            rwa [SafeText.of_word hkey.1 hq] at this
          have e2 := Lx.append e1 (Lx.eqs _)
          have e3 := Lx.append (a := [' ']) (ts := []) (Lx.delim (c := ' ') (by decide) _) e2
          simpa using e3
    have hb := fun r => hb _ ks (fun _ _ h => h) hs.2 hw.2 hn.2 r
    rw [makeStr, nodeToks]
    cases hks : ks.isEmpty with
    | true =>
      have e : ks = [] := by simpa using hks
      subst e
      exact hval (hn.1 rfl) r hr
    | false =>
      have e : ks ≠ [] := by rintro rfl; simp at hks
      have hlen : ks.length > 0 := by cases ks with | nil => exact (e rfl).elim | cons _ _ => simp
      rw [if_pos hlen, if_neg (show ¬ (false = true) by simp)]
      have harr : isArray (.mk v ks a) = (ks.all fun p => p.1.isEmpty) := rfl
      rw [harr]
      generalize hm : (ks.all fun p => p.1.isEmpty) = m at *
      have hcls : (if m = true then " ]".toList else " }".toList) = [' ', cls m] := by cases m <;> rfl
      have hopn : (if m = true then '[' else '{') = opn m := by cases m <;> rfl
      rw [hcls, hopn]
      have e2 : Lx [' ', cls m] [[cls m]] r := Lx.append (a := [' ']) (b := [cls m]) (ts := []) (Lx.delim (by decide) _) (Lx.op (cls_mem m) r)
      have e3 : Lx (makeStrKids m ks ++ [' ', cls m]) ((docKids m ks).toks m ++ [[cls m]]) r := Lx.append (hb (cls m :: r)) e2
      have e4 := Lx.append (a := [opn m]) (Lx.op (opn_mem m) _) e3
      have hbr : bracket m = [opn m] ∧ unbracket m = [cls m] := by cases m <;> exact ⟨rfl, rfl⟩
      rw [hbr.1, hbr.2]
      cases hv : v.isEmpty with
      | true =>
        have e5 : v = [] := by simpa using hv
        subst e5
        simpa using e4
      | false =>
        have e5 : v ≠ [] := by rintro rfl; simp at hv
        have e6 := Lx.append (a := v) (hval e5 _ (bnd0_sp _)) (Lx.append (a := [' ']) (ts := []) (Lx.delim (by decide) _) e4)
        simpa using e6

/-- **C84.** The text that `make_str_from_prop_node` gives for a node, as the value of a ZML item, is read as that node. (partial: names and
values are words and leaves have values; no quotation marks are written) -/
theorem C84_reads_back_partial (env : Env) (k : Str) (n : PropNode) (hs : SafeItem false k n) (hk : ¬ Quoted k) (hw : Words n) (hn : NoEmpty n) :
    ∃ m, parse env (k ++ " = ".toList ++ makeStr n) = .ok (m, false) ∧ m.eq (.mk [] [(k, n)] false) = true := by
  refine ⟨.mk [] [(k, setAccessedRec false n)] false, ?_, ?_⟩
  · refine C80_doc_partial env (fun _ => .ub) (fun _ => ⟨fun _ h => (by cases h), fun h => (by cases h)⟩) (docOf false k .nil n)
      (docOf_ok n false k .nil hs trivial) _ ?_ _ (docOf_eval _ n false k .nil [] hs rfl)
    rw [docOf_toks hs]
    have hkey : SafeKey k := by obtain ⟨v, ks, a⟩ := n; rw [SafeItem] at hs; exact hs.1.1
    have hkne : k ≠ [] := SafeKey.ne hkey
    have e0 := makeStr_lex n false k hs hw hn [] (.inl rfl)
    have e1 : Lx k [k] (" = ".toList ++ (makeStr n ++ [])) := by
      have := Lx.piece (r := " = ".toList ++ (makeStr n ++ [])) hkey.1 (bnd0_sp _).bnd (fun e => (hkne e).elim)
      rwa [SafeText.of_word hkey.1 hk] at this
    have e2 := Lx.append (Lx.append e1 (Lx.eqs _)) e0
    unfold Lx at e2
    have e3 : lexAll [] = ([], .eof) := by decide +kernel
    rw [List.append_nil, e3] at e2
    rw [e2]
    simp [Doc.toks]
  · simpa [setAccessedRec, setAccessedRecKids] using eq_norm (.mk [] [(k, n)] false)

/-- A node with a value, an array and a group. -/
example : let n := PropNode.mk "v".toList [("a".toList, .mk [] [([], leaf "1".toList), ([], leaf "2".toList)] false),
      ("b".toList, .mk [] [("c".toList, leaf "x".toList)] false)] false
    makeStr n = "v { a = [ 1 2 ] b = { c = x } }".toList ∧
      readsAs (parse ⟨true, fun _ => .err⟩ ("n = ".toList ++ makeStr n)) (.mk [] [("n".toList, n)] false) = true := by
  decide +kernel

/-- **C84 is violated by texts that need quotation marks, and by empty values**: the node that is read is another one, or none. -/
theorem C84_quotes_violated :
    let n1 := PropNode.mk [] [("a".toList, leaf "x } b = y".toList)] false
    let n2 := PropNode.mk [] [("a".toList, .empty), ("b".toList, leaf "1".toList)] false
    reportsError (parse ⟨false, fun _ => .err⟩ ("n = ".toList ++ makeStr n1)) = true ∧
      reportsError (parse ⟨false, fun _ => .err⟩ ("n = ".toList ++ makeStr n2)) = true := by
  decide +kernel

/-- **C84 is violated**: different nodes have the same text. -/
theorem C84_ambiguous_violated (v : Str) (hv : v ≠ []) : ∃ n m : PropNode, n.eq m = false ∧ makeStr n = makeStr m := by
  refine ⟨.leaf (v ++ " { a = 1 }".toList), .mk v [("a".toList, leaf "1".toList)] false, ?_, ?_⟩
  · have : v ++ " { a = 1 }".toList ≠ v := by
      intro h
      have := congrArg List.length h
      rw [List.length_append] at this
      simp at this
    simp only [leaf, PropNode.eq]
    exact if_pos this
  · have : v.isEmpty = false := by cases v <;> simp_all
    simp [leaf, makeStr, makeStrKids, isArray, PropNode.kids, this]

end Zml
end Xo
