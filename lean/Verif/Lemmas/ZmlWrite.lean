import Verif.Lemmas.ZmlLex

/-!
The tokens of the texts that the ZML writers produce.
-/
namespace Xo
namespace Zml
open Spec

/-- The tokens of key and value. -/
def headToks (arr : Bool) (k v : Str) (noKids : Bool) : List Str :=
  (if arr then [] else [k]) ++ (if v = [] ∧ noKids = false then [] else if arr then [v] else [['='], v])

mutual
/-- The tokens of an item of a group (`arr = false`) or an array (`arr = true`). -/
def toks (arr : Bool) (k : Str) : PropNode → List Str
  | .mk v ks _ => headToks arr k v ks.isEmpty ++
    (if ks.isEmpty then [] else [opn (ks.all fun p => p.1.isEmpty)] :: (toksKids (ks.all fun p => p.1.isEmpty) ks ++
      [[cls (ks.all fun p => p.1.isEmpty)]]))
def toksKids (arr : Bool) : PropNode.Kids → List Str
  | [] => []
  | (k, c) :: cs => toks arr k c ++ toksKids arr cs
end

/-- The conditions on key and value of an item. -/
def SafeHead (arr : Bool) (k v : Str) (noKids : Bool) : Prop :=
  match arr with
  | true => k = [] ∧ (if noKids = true then SafeElem v else v = [])
  | false => SafeKey k ∧ SafeValue v

theorem SafeItem.head {arr : Bool} {k v : Str} {ks : PropNode.Kids} {a : Bool} (h : SafeItem arr k (.mk v ks a)) :
    SafeHead arr k v ks.isEmpty ∧ SafeKids (ks.all fun p => p.1.isEmpty) ks := by
  cases arr with
  | false =>
    simp only [SafeItem] at h
    exact ⟨h.1, h.2⟩
  | true =>
    simp only [SafeItem] at h
    refine ⟨⟨h.1.1, ?_⟩, h.2⟩
    have := h.1.2
    cases ks <;> simpa using this

theorem SafeKey.ne {k : Str} (h : SafeKey k) : k ≠ [] := by
  rintro rfl
  obtain ⟨_, ⟨c, hc, _⟩, _⟩ := h
  cases hc

/-- Writing key and value. -/
theorem writeKvp_lex {arr b : Bool} {k v : Str} {noKids : Bool} (h : SafeHead arr k v noKids) (hb : b = arr ∨ noKids = false)
    (eqs : Str) (he : ∀ r, Lx eqs [['=']] r) (heb : ∀ r, Bnd (eqs ++ r)) :
    ∃ t, writeKvp k v noKids eqs b = .ok t ∧
      ∀ r, Bnd r → (v = [] → noKids = true → Bnd0 r) → Lx t (headToks arr k v noKids) r := by
  unfold writeKvp
  cases arr with
  | true =>
    obtain ⟨rfl, h⟩ := h
    cases noKids with
    | true =>
      rw [if_pos rfl] at h
      rcases hb with rfl | hb
      · refine ⟨tryQuoted special v, by simp, ?_⟩
        intro r hr h0
        simpa [headToks] using Lx.piece h.1.1 hr (fun e => h0 e rfl)
      · cases hb
    | false =>
      rw [if_neg (by simp)] at h
      subst h
      refine ⟨[], by simp, ?_⟩
      intro r hr h0
      simpa [headToks] using Lx.nil r
  | false =>
    obtain ⟨hk, hv⟩ := h
    have hkne := SafeKey.ne hk
    have hki : k.isEmpty = false := by cases k <;> simp_all
    by_cases hs : v = [] ∧ noKids = false
    · obtain ⟨rfl, rfl⟩ := hs
      refine ⟨tryQuoted special k, by simp [hki], ?_⟩
      intro r hr h0
      simpa [headToks] using Lx.piece hk.1 hr (fun e => absurd e hkne)
    · have hsv : (!v.isEmpty || noKids) = true := by
        cases v <;> cases noKids <;> simp_all
      refine ⟨tryQuoted special k ++ eqs ++ tryQuoted special v, by simp [hki, hsv], ?_⟩
      intro r hr h0
      have e1 : Lx (tryQuoted special v) [v] r := Lx.piece hv.1 hr (fun e => h0 e (by
        by_contra hn
        exact hs ⟨e, by simpa using hn⟩))
      have e2 : Lx (eqs ++ tryQuoted special v) ([['=']] ++ [v]) r := Lx.append (he _) e1
      have e3 : Lx (tryQuoted special k ++ (eqs ++ tryQuoted special v)) ([k] ++ ([['=']] ++ [v])) r :=
        Lx.append (Lx.piece hk.1 (by rw [List.append_assoc]; exact heb _) (fun e => absurd e hkne)) e2
      simpa [headToks, hs] using e3

theorem Lx.eqs (r : Str) : Lx " = ".toList [['=']] r := by
  have h1 : Lx [' '] [] (['='] ++ ([' '] ++ r)) := Lx.delim (by decide) _
  have h2 : Lx ['='] [['=']] ([' '] ++ r) := Lx.op (by decide) _
  have h3 : Lx [' '] [] r := Lx.delim (by decide) _
  have h4 := Lx.append (a := ['=']) (b := [' ']) h2 h3
  exact Lx.append (a := [' ']) (b := ['=', ' ']) (by simpa using h1) h4

theorem opn_mem (arr : Bool) : opn arr ∈ ['=', '{', '}', '[', ']'] := by cases arr <;> decide
theorem cls_mem (arr : Bool) : cls arr ∈ ['=', '{', '}', '[', ']'] := by cases arr <;> decide

theorem bnd_opn (arr : Bool) (r : Str) : Bnd (opn arr :: r) := .inr ⟨_, _, rfl, by cases arr <;> decide⟩
theorem bnd_cls (arr : Bool) (r : Str) : Bnd (cls arr :: r) := .inr ⟨_, _, rfl, by cases arr <;> decide⟩
theorem bnd0_sp (r : Str) : Bnd0 (' ' :: r) := .inr ⟨_, _, rfl, by decide⟩
theorem bnd0_nl (r : Str) : Bnd0 ('\n' :: r) := .inr ⟨_, _, rfl, by decide⟩

theorem SafeHead.label {arr : Bool} {k v : Str} {nk : Bool} (h : SafeHead arr k v nk) : k.isEmpty = arr := by
  cases arr with
  | true => rw [h.1]; rfl
  | false => have := SafeKey.ne h.1; cases k <;> simp_all

/-- Reads the text `o` as the item, whatever follows it in the normal layout. -/
def LexItem (o : Str) (arr : Bool) (k : Str) (c : PropNode) : Prop := ∀ r, Bnd0 r → Lx o (toks arr k c) r

theorem headBnd {arr : Bool} {k v : Str} {t : Str} {nk : Bool} (h : SafeHead arr k v nk) (r : Str)
    (hl : ∀ r, Bnd r → (v = [] → nk = true → Bnd0 r) → Lx t (headToks arr k v nk) r) (hnk : nk = false) (ht : arr = true → t = []) :
    Lx (t ++ (if k.isEmpty then [] else [' '])) (headToks arr k v nk) r := by
  rw [h.label]
  cases arr with
  | true =>
    have := ht rfl
    subst this
    have hh : headToks true k v nk = [] := by
      obtain ⟨rfl, h2⟩ := h
      subst hnk
      simp only [Bool.false_eq_true, if_false] at h2
      simp [headToks, h2]
    rw [hh]
    exact Lx.nil r
  | false =>
    have h1 := hl (' ' :: r) (bnd0_sp r).bnd (fun _ _ => bnd0_sp r)
    have h2 := Lx.append (b := [' ']) (us := []) (by simpa using h1) (Lx.delim (by decide) r)
    simpa using h2

theorem kvp_empty {b : Bool} {k v : Str} {eqs t : Str} (hs : SafeHead true k v false) (h : writeKvp k v false eqs b = .ok t) :
    t = [] := by
  obtain ⟨rfl, h2⟩ := hs
  rw [if_neg (by simp)] at h2
  subst h2
  simpa [writeKvp] using h.symm

/-- `write_zml_node_one_line`. -/
theorem writeOneLine_lex (c : PropNode) : ∀ (arr b : Bool) (k : Str), SafeItem arr k c → (b = arr ∨ c.kids ≠ []) →
    ∃ o, writeOneLine k b c = .ok o ∧ LexItem o arr k c := by
  induction c using PropNode.ind with
  | h v ks a ih =>
    intro arr b k hs hb
    obtain ⟨hh, hk⟩ := SafeItem.head hs
    obtain ⟨t, ht, hl⟩ := writeKvp_lex hh (b := b) (by
      rcases hb with h | h
      · exact .inl h
      · right; cases ks <;> simp_all [PropNode.kids]) " = ".toList Lx.eqs (fun r => (bnd0_sp _).bnd)
    rw [writeOneLine]
    simp only [ht, Res.bind]
    by_cases hks : ks.isEmpty = true
    · rw [if_pos hks]
      refine ⟨t, rfl, ?_⟩
      intro r hr
      rw [toks, if_pos hks, List.append_nil]
      exact hl r hr.bnd (fun _ _ => hr)
    · rw [if_neg hks]
      have hks' : ks.isEmpty = false := by simpa using hks
      -- the children
      have hkids : ∀ (m : Bool) (l : PropNode.Kids), (∀ k c, (k, c) ∈ l → (k, c) ∈ ks) → SafeKids m l →
          ∃ o, writeOneLineKids m l = .ok o ∧ ∀ r, Lx o (toksKids m l) (' ' :: r) := by
        intro m l
        induction l with
        | nil => intro _ _; exact ⟨[], rfl, fun r => by simpa [toksKids] using Lx.nil _⟩
        | cons e l ihl =>
          obtain ⟨k', c'⟩ := e
          intro hsub hsk
          rw [SafeKids] at hsk
          obtain ⟨o1, h1, hl1⟩ := ih k' c' (hsub k' c' (by simp)) m m k' hsk.1 (.inl rfl)
          obtain ⟨o2, h2, hl2⟩ := ihl (fun k c hm => hsub k c (by simp [hm])) hsk.2
          rw [writeOneLineKids, h1]
          simp only [Res.bind, h2]
          refine ⟨_, rfl, ?_⟩
          intro r
          rw [toksKids]
          cases l with
          | nil =>
            simp only [writeOneLineKids, Res.ok.injEq] at h2
            subst h2
            have := hl1 (' ' :: r) (bnd0_sp r)
            simpa [toksKids] using this
          | cons e l =>
            simp only [List.isEmpty_cons, Bool.false_eq_true, if_false]
            have h3 : Lx ([' '] ++ o2) ([] ++ toksKids m (e :: l)) (' ' :: r) := Lx.append (Lx.delim (by decide) _) (hl2 r)
            rw [List.append_assoc]
            refine Lx.append (hl1 _ ?_) h3
            exact bnd0_sp _
      obtain ⟨bd, hbd, hlb⟩ := hkids _ ks (fun _ _ h => h) hk
      rw [hbd]
      refine ⟨_, rfl, ?_⟩
      intro r hr
      rw [toks, if_neg hks]
      generalize hm : (ks.all fun p => p.1.isEmpty) = m at *
      have e1 := headBnd hh ([opn m, ' '] ++ (bd ++ ([' ', cls m] ++ r))) hl hks' (fun hx => by
        subst hx; rw [hks'] at hh ht; exact kvp_empty hh ht)
      have e2 : Lx [' ', cls m] [[cls m]] r := Lx.append (a := [' ']) (b := [cls m]) (ts := []) (Lx.delim (by decide) _)
        (Lx.op (cls_mem m) r)
      have e3 : Lx (bd ++ [' ', cls m]) (toksKids m ks ++ [[cls m]]) r := Lx.append (hlb _) e2
      have e4 : Lx ([opn m] ++ [' ']) ([[opn m]] ++ []) ((bd ++ [' ', cls m]) ++ r) :=
        Lx.append (Lx.op (opn_mem m) _) (Lx.delim (by decide) _)
      have e5 := Lx.append e4 e3
      have e6 := Lx.append (a := t ++ (if k.isEmpty then [] else [' '])) (by simpa using e1) e5
      simpa [List.append_assoc] using e6

/-- `write_zml_node` below the root. -/
theorem writeNode_lex (c : PropNode) : ∀ (arr : Bool) (k : Str) (level : Nat), level ≠ 0 → SafeItem arr k c →
    ∃ o, writeNode k level arr c = .ok o ∧ LexItem o arr k c := by
  induction c using PropNode.ind with
  | h v ks a ih =>
    intro arr k level hlv hs
    obtain ⟨hh, hk⟩ := SafeItem.head hs
    obtain ⟨t, ht, hl⟩ := writeKvp_lex hh (b := arr) (.inl rfl) " = ".toList Lx.eqs (fun r => (bnd0_sp _).bnd)
    rw [writeNode]
    by_cases hks : ks.isEmpty = true
    · rw [if_pos hks]
      rw [hks] at ht hl
      simp only [ht, Res.bind]
      refine ⟨_, rfl, ?_⟩
      intro r hr
      rw [toks, if_pos hks, List.append_nil]
      rw [hks]
      exact Lx.append (ts := []) (Lx.tabs _ _) (hl r hr.bnd (fun _ _ => hr))
    · rw [if_neg hks]
      have hks' : ks.isEmpty = false := by simpa using hks
      rw [hks'] at ht hl hh
      have hkids : ∀ (m : Bool) (l : PropNode.Kids), (∀ k c, (k, c) ∈ l → (k, c) ∈ ks) → SafeKids m l →
          ∃ o, writeNodeKids (level + 1) m l = .ok o ∧ ∀ r, Lx o (toksKids m l) r := by
        intro m l
        induction l with
        | nil => intro _ _; exact ⟨[], rfl, fun r => by simpa [toksKids] using Lx.nil _⟩
        | cons e l ihl =>
          obtain ⟨k', c'⟩ := e
          intro hsub hsk
          rw [SafeKids] at hsk
          obtain ⟨o1, h1, hl1⟩ := ih k' c' (hsub k' c' (by simp)) m k' (level + 1) (by omega) hsk.1
          obtain ⟨o2, h2, hl2⟩ := ihl (fun k c hm => hsub k c (by simp [hm])) hsk.2
          rw [writeNodeKids, h1]
          simp only [Res.bind, h2]
          refine ⟨_, rfl, ?_⟩
          intro r
          rw [toksKids]
          have h3 : Lx (['\n'] ++ o2) ([] ++ toksKids m l) r := Lx.append (Lx.delim (by decide) _) (hl2 r)
          rw [List.append_assoc]
          exact Lx.append (hl1 _ (bnd0_nl _)) h3
      obtain ⟨bd, hbd, hlb⟩ := hkids _ ks (fun _ _ h => h) hk
      have hfull : LexItem (List.replicate (level - 1) '\t' ++ t ++ (if k.isEmpty then [] else [' ']) ++
          (if level = 0 then [] else [opn (ks.all fun p => p.1.isEmpty), '\n']) ++ bd ++
          (if level = 0 then [] else List.replicate (level - 1) '\t' ++ [cls (ks.all fun p => p.1.isEmpty)])) arr k
          (.mk v ks a) := by
        intro r hr
        rw [toks, if_neg hks, if_neg hlv, if_neg hlv, hks']
        generalize hm : (ks.all fun p => p.1.isEmpty) = m at *
        generalize ht2 : List.replicate (level - 1) '\t' = tb at *
        have htb : ∀ r, Lx tb [] r := fun r => by rw [← ht2]; exact Lx.tabs _ r
        have e1 := headBnd hh ([opn m, '\n'] ++ (bd ++ (tb ++ [cls m] ++ r))) hl rfl (fun hx => by
          subst hx; exact kvp_empty hh ht)
        have e2 : Lx (tb ++ [cls m]) ([] ++ [[cls m]]) r := Lx.append (htb _) (Lx.op (cls_mem m) r)
        have e3 : Lx (bd ++ (tb ++ [cls m])) (toksKids m ks ++ ([] ++ [[cls m]])) r := Lx.append (hlb _) e2
        have e4 : Lx ([opn m] ++ ['\n']) ([[opn m]] ++ []) ((bd ++ (tb ++ [cls m])) ++ r) :=
          Lx.append (Lx.op (opn_mem m) _) (Lx.delim (by decide) _)
        have e5 := Lx.append e4 e3
        have e6 := Lx.append (a := t ++ (if k.isEmpty then [] else [' '])) (by simpa using e1) e5
        have e7 := Lx.append (a := tb) (ts := []) (htb _) e6
        simpa [List.append_assoc] using e7
      simp only [ht, hbd, Res.bind]
      rw [if_neg hlv, if_neg hlv] at hfull
      simp only [hlv, if_false]
      split
      · obtain ⟨o, ho, hlo⟩ := writeOneLine_lex (.mk v ks a) arr (ks.all fun p => p.1.isEmpty) k hs (by
          right; simpa [PropNode.kids] using hks)
        rw [ho]
        simp only
        split
        · refine ⟨_, rfl, ?_⟩
          intro r hr
          exact Lx.append (ts := []) (Lx.tabs _ _) (hlo r hr)
        · exact ⟨_, rfl, hfull⟩
      · exact ⟨_, rfl, hfull⟩

/-- The tokens of the written text are the tokens of the tree. -/
theorem write_lex {n : PropNode} (h : SafeRoot n) : ∃ text, write n = .ok text ∧ lexAll text = (toksKids false n.kids, .eof) := by
  obtain ⟨v, ks, a⟩ := n
  obtain ⟨hv, hk⟩ := h
  simp only [PropNode.value] at hv
  simp only [PropNode.kids] at hk ⊢
  subst hv
  have hnil : lexAll [] = ([], .eof) := lexAll_eof (zmlToken_eof rfl)
  unfold write
  cases ks with
  | nil => exact ⟨[], rfl, hnil⟩
  | cons e ks =>
    simp only [PropNode.value, PropNode.kids, List.isEmpty_nil, List.isEmpty_cons, Bool.and_false, Bool.false_eq_true, if_false]
    have hkids : ∀ (l : PropNode.Kids), SafeKids false l →
        ∃ o, writeNodeKids 1 false l = .ok o ∧ ∀ r, Lx o (toksKids false l) r := by
      intro l
      induction l with
      | nil => intro _; exact ⟨[], rfl, fun r => by simpa [toksKids] using Lx.nil _⟩
      | cons e l ihl =>
        obtain ⟨k', c'⟩ := e
        intro hsk
        rw [SafeKids] at hsk
        obtain ⟨o1, h1, hl1⟩ := writeNode_lex c' false k' 1 (by omega) hsk.1
        obtain ⟨o2, h2, hl2⟩ := ihl hsk.2
        rw [writeNodeKids, h1]
        simp only [Res.bind, h2]
        refine ⟨_, rfl, ?_⟩
        intro r
        rw [toksKids]
        have h3 : Lx (['\n'] ++ o2) ([] ++ toksKids false l) r := Lx.append (Lx.delim (by decide) _) (hl2 r)
        rw [List.append_assoc]
        exact Lx.append (hl1 _ (bnd0_nl _)) h3
    obtain ⟨o, ho, hlo⟩ := hkids _ hk
    have hm : (List.all (e :: ks) fun p => p.1.isEmpty) = false := by
      obtain ⟨k', c'⟩ := e
      obtain ⟨v', ks', a'⟩ := c'
      rw [SafeKids] at hk
      have := (SafeItem.head hk.1).1.label
      simp [this]
    rw [writeNode]
    simp only [List.isEmpty_cons, Bool.false_eq_true, if_false, ne_eq, not_true_eq_false, false_and, hm, writeKvp, List.isEmpty_nil,
      Bool.not_true, Bool.or_false, Bool.and_false, Bool.and_self, Res.bind, Nat.zero_add, ho, if_true, List.nil_append,
      List.append_nil]
    refine ⟨_, rfl, ?_⟩
    have := hlo []
    rw [Lx, List.append_nil, hnil] at this
    simpa using this

/-- `write_zml_node_concise` below the root. -/
theorem writeConcise_lex (c : PropNode) : ∀ (arr : Bool) (k : Str), SafeItem arr k c → NoEmpty c →
    ∃ o, writeConcise k false arr c = .ok o ∧ ∀ r, Bnd r → Lx o (toks arr k c) r := by
  induction c using PropNode.ind with
  | h v ks a ih =>
    intro arr k hs hne
    obtain ⟨hh, hk⟩ := SafeItem.head hs
    rw [NoEmpty] at hne
    obtain ⟨t, ht, hl⟩ := writeKvp_lex hh (b := arr) (.inl rfl) ['='] (fun r => Lx.op (by decide) r)
      (fun r => .inr ⟨_, _, rfl, by decide⟩)
    rw [writeConcise]
    simp only [ht, Res.bind]
    by_cases hks : ks.isEmpty = true
    · rw [if_pos hks]
      refine ⟨t, rfl, ?_⟩
      intro r hr
      rw [toks, if_pos hks, List.append_nil]
      exact hl r hr (fun e _ => absurd e (hne.1 (by simpa using hks)))
    · rw [if_neg hks]
      have hks' : ks.isEmpty = false := by simpa using hks
      have hkids : ∀ (m : Bool) (l : PropNode.Kids), (∀ k c, (k, c) ∈ l → (k, c) ∈ ks) → SafeKids m l → NoEmptyKids l →
          ∃ o, writeConciseKids m l = .ok o ∧ ∀ r, Bnd r → Lx o (toksKids m l) r := by
        intro m l
        induction l with
        | nil => intro _ _ _; exact ⟨[], rfl, fun r _ => by simpa [toksKids] using Lx.nil _⟩
        | cons e l ihl =>
          obtain ⟨k', c'⟩ := e
          intro hsub hsk hnk
          rw [SafeKids] at hsk
          rw [NoEmptyKids] at hnk
          obtain ⟨o1, h1, hl1⟩ := ih k' c' (hsub k' c' (by simp)) m k' hsk.1 hnk.1
          obtain ⟨o2, h2, hl2⟩ := ihl (fun k c hm => hsub k c (by simp [hm])) hsk.2 hnk.2
          rw [writeConciseKids, h1]
          simp only [Res.bind, h2]
          refine ⟨_, rfl, ?_⟩
          intro r hr
          rw [toksKids]
          cases l with
          | nil =>
            simp only [writeConciseKids, Res.ok.injEq] at h2
            subst h2
            have := hl1 r hr
            simpa [toksKids] using this
          | cons e l =>
            simp only [List.isEmpty_cons, Bool.false_eq_true, if_false]
            have h3 : Lx ([' '] ++ o2) ([] ++ toksKids m (e :: l)) r := Lx.append (Lx.delim (by decide) _) (hl2 r hr)
            rw [List.append_assoc]
            exact Lx.append (hl1 _ (bnd0_sp _).bnd) h3
      obtain ⟨bd, hbd, hlb⟩ := hkids _ ks (fun _ _ h => h) hk hne.2
      rw [hbd]
      refine ⟨_, rfl, ?_⟩
      intro r hr
      rw [toks, if_neg hks]
      generalize hm : (ks.all fun p => p.1.isEmpty) = m at *
      simp only [Bool.false_eq_true, if_false]
      have e1 := hl ([opn m] ++ (bd ++ ([cls m] ++ r))) (bnd_opn m _) (fun _ e => absurd e hks)
      have e2 : Lx (bd ++ [cls m]) (toksKids m ks ++ [[cls m]]) r := Lx.append (hlb _ (bnd_cls m r)) (Lx.op (cls_mem m) r)
      have e3 : Lx ([opn m] ++ (bd ++ [cls m])) ([[opn m]] ++ (toksKids m ks ++ [[cls m]])) r :=
        Lx.append (Lx.op (opn_mem m) _) e2
      have e4 := Lx.append (a := t) (by simpa using e1) e3
      simpa [List.append_assoc] using e4

/-- The tokens of the concise text are the tokens of the tree. -/
theorem writeC_lex {n : PropNode} (h : SafeRoot n) (hne : n.kids ≠ []) (hn : NoEmptyKids n.kids) :
    ∃ text, writeC n = .ok text ∧ lexAll text = (toksKids false n.kids, .eof) := by
  obtain ⟨v, ks, a⟩ := n
  obtain ⟨hv, hk⟩ := h
  simp only [PropNode.value] at hv
  simp only [PropNode.kids] at hk hn hne ⊢
  subst hv
  have hnil : lexAll [] = ([], .eof) := lexAll_eof (zmlToken_eof rfl)
  have hkids : ∀ (l : PropNode.Kids), SafeKids false l → NoEmptyKids l →
      ∃ o, writeConciseKids false l = .ok o ∧ ∀ r, Bnd r → Lx o (toksKids false l) r := by
    intro l
    induction l with
    | nil => intro _ _; exact ⟨[], rfl, fun r _ => by simpa [toksKids] using Lx.nil _⟩
    | cons e l ihl =>
      obtain ⟨k', c'⟩ := e
      intro hsk hnk
      rw [SafeKids] at hsk
      rw [NoEmptyKids] at hnk
      obtain ⟨o1, h1, hl1⟩ := writeConcise_lex c' false k' hsk.1 hnk.1
      obtain ⟨o2, h2, hl2⟩ := ihl hsk.2 hnk.2
      rw [writeConciseKids, h1]
      simp only [Res.bind, h2]
      refine ⟨_, rfl, ?_⟩
      intro r hr
      rw [toksKids]
      cases l with
      | nil =>
        simp only [writeConciseKids, Res.ok.injEq] at h2
        subst h2
        have := hl1 r hr
        simpa [toksKids] using this
      | cons e l =>
        simp only [List.isEmpty_cons, Bool.false_eq_true, if_false]
        have h3 : Lx ([' '] ++ o2) ([] ++ toksKids false (e :: l)) r := Lx.append (Lx.delim (by decide) _) (hl2 r hr)
        rw [List.append_assoc]
        exact Lx.append (hl1 _ (bnd0_sp _).bnd) h3
  obtain ⟨o, ho, hlo⟩ := hkids _ hk hn
  cases ks with
  | nil => exact absurd rfl hne
  | cons e ks =>
    have hm : (List.all (e :: ks) fun p => p.1.isEmpty) = false := by
      obtain ⟨k', c'⟩ := e
      obtain ⟨v', ks', a'⟩ := c'
      rw [SafeKids] at hk
      have := (SafeItem.head hk.1).1.label
      simp [this]
    unfold writeC
    rw [writeConcise]
    simp only [List.isEmpty_cons, Bool.false_eq_true, if_false, hm, writeKvp, List.isEmpty_nil,
      Bool.not_true, Bool.or_false, Bool.and_false, Bool.and_self, Res.bind, ho, if_true, List.nil_append,
      List.append_nil]
    refine ⟨_, rfl, ?_⟩
    have := hlo [] (.inl rfl)
    rw [Lx, List.append_nil, hnil] at this
    simpa using this

end Zml
end Xo
