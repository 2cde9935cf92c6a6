import Verif.Lemmas.ZmlWrite
import Verif.Props.C21_ZmlTermination
import Verif.Props.C27_Replace

/-!
Reading the tokens of a tree gives the tree.
-/
namespace Xo
namespace Zml
open Spec

/-- The call returns `r` with the number of steps that the number of remaining tokens allows. -/
def Runs (env : Env) (close : Str) (view : View) (im : Bool) (base : Nat) (p : PropNode) (st : St) (r : PropNode × St) : Prop :=
  layer env (st.toks.length + 1) close view im base p st = .ok r

theorem Runs.le {env : Env} {close : Str} {view : View} {im : Bool} {base : Nat} {p : PropNode} {st : St} {r : PropNode × St}
    (h : Runs env close view im base p st r) {n : Nat} (hn : st.toks.length + 1 ≤ n) :
    layer env n close view im base p st = .ok r := by
  rw [layer_mono_le env hn (by rw [h]; simp)]
  exact h

theorem next_cons (env : Env) (t : Str) (ts : List Str) (fin : LexEnd) (ms : PropNode.Kids) (f : Bool) :
    next env ⟨t :: ts, fin, ms, f⟩ = .ok (t, ⟨ts, fin, ms, f⟩) := rfl

/-- Closing a layer. -/
theorem Runs.close (env : Env) (close : Str) (view : View) (im : Bool) (base : Nat) (p : PropNode) (ts : List Str) (fin : LexEnd)
    (ms : PropNode.Kids) (f : Bool) :
    Runs env close view im base p ⟨close :: ts, fin, ms, f⟩ (p, ⟨ts, fin, ms.take base, f⟩) := by
  unfold Runs
  rw [layer.eq_def]
  simp only [List.length_cons, next_cons, if_true]

/-- One item whose value is a plain text. -/
theorem Runs.text {env : Env} {close : Str} {view : View} {im : Bool} {base : Nat} {p p1 p2 : PropNode} {t v : Str} {ts rest : List Str}
    {fin : LexEnd} {ms : PropNode.Kids} {f : Bool} {r : PropNode × St} (h1 : t ≠ close) (h2 : t ≠ []) (h3 : t ≠ ['<', '<'])
    (hh : head env im close t p ⟨ts, fin, ms, f⟩ = .ok (.go .last p1 ⟨rest, fin, ms, f⟩ v)) (ho : opens v = none)
    (ha : assign view .last p1 ms v = some (p2, ms)) (hl : rest.length ≤ ts.length)
    (hr : Runs env close view im base p2 ⟨rest, fin, ms, f⟩ r) : Runs env close view im base p ⟨t :: ts, fin, ms, f⟩ r := by
  unfold Runs
  rw [layer.eq_def]
  simp only [List.length_cons, next_cons, if_neg h1, if_neg h2, if_neg h3, hh, ho, ha]
  exact hr.le (by simpa using hl)

/-- One item whose value is a group or an array. -/
theorem Runs.group {env : Env} {close cl : Str} {view : View} {im : Bool} {base : Nat} {p p1 c : PropNode} {t v : Str}
    {ts inner rest : List Str}
    {fin : LexEnd} {ms : PropNode.Kids} {f : Bool} {r : PropNode × St} (h1 : t ≠ close) (h2 : t ≠ []) (h3 : t ≠ ['<', '<'])
    (hh : head env im close t p ⟨ts, fin, ms, f⟩ = .ok (.go .last p1 ⟨inner, fin, ms, f⟩ v)) (ho : opens v = some cl)
    (hl : inner.length ≤ ts.length) (hl2 : rest.length ≤ ts.length)
    (hi : Runs env cl (subView view .last p1) im ms.length (fetch .last p1 ms) ⟨inner, fin, ms, f⟩ (c, ⟨rest, fin, ms, f⟩))
    (hr : Runs env close view im base (setLast p1 c) ⟨rest, fin, ms, f⟩ r) :
    Runs env close view im base p ⟨t :: ts, fin, ms, f⟩ r := by
  unfold Runs
  rw [layer.eq_def]
  simp only [List.length_cons, next_cons, if_neg h1, if_neg h2, if_neg h3, hh, ho, Target.isMac, Bool.or_false]
  rw [hi.le (by simpa using hl)]
  exact hr.le (by simpa using hl2)

theorem addChild_kids (p : PropNode) (k : Str) (c : PropNode) : (p.addChild k c).kids = p.kids ++ [(k, c)] := rfl

theorem setLast_addChild (p : PropNode) (k : Str) (c d : PropNode) : setLast (p.addChild k c) d = p.addChild k d := by
  obtain ⟨v, ks, a⟩ := p
  simp only [setLast, PropNode.addChild, PropNode.withKids, PropNode.kids, PropNode.value, PropNode.flag]
  congr 1
  have : ∀ ks : PropNode.Kids, (ks ++ [(k, c)]).modify ((ks ++ [(k, c)]).length - 1) (fun e => (e.1, d)) = ks ++ [(k, d)] := by
    intro ks
    induction ks with
    | nil => rfl
    | cons e ks ih =>
      simp only [List.cons_append, List.length_cons, List.length_append, List.length_nil, Nat.zero_add, Nat.add_sub_cancel] at ih ⊢
      rw [List.modify_succ_cons, ih]
  exact this ks

theorem fetch_addChild (p : PropNode) (k : Str) (c : PropNode) (ms : PropNode.Kids) : fetch .last (p.addChild k c) ms = c := by
  simp [fetch, addChild_kids]

theorem inlineMacros_none (ms : PropNode.Kids) {v : Str} (h : ∀ x y, v ≠ x ++ '$' :: '{' :: y) : inlineMacros ms v = some v := by
  have hf : strFind v ['$', '{'] 0 = none := by
    have := strFind_spec v ['$', '{'] 0 (Nat.zero_le _)
    cases hs : strFind v ['$', '{'] 0 with
    | none => rfl
    | some j =>
      rw [hs] at this
      obtain ⟨_, ⟨_, y, hy⟩, _⟩ := this
      simp only [Nat.sub_zero, List.drop_zero] at hy
      have := List.take_append_drop j v
      rw [← hy] at this
      exact absurd this.symm (h _ _)
  rw [inlineMacros.eq_def, hf]

theorem assign_text (view : View) (p : PropNode) (k : Str) (ms : PropNode.Kids) {v : Str} (h : SafeValue v) :
    assign view .last (p.addChild k .empty) ms v = some (p.addChild k (.mk v [] false), ms) := by
  obtain ⟨_, h1, h2, h3, _⟩ := h
  unfold assign
  rw [if_neg h1, if_neg]
  · rw [inlineMacros_none _ h3]
    simp only [Option.map_some, put, setLast_addChild, fetch_addChild]
    rfl
  · rintro ⟨hl, hd, _⟩
    rw [h2 hd] at hl
    simp at hl

theorem opens_text {v : Str} (h : SafeValue v) : opens v = none := by
  obtain ⟨_, _, _, _, h1, h2⟩ := h
  simp [opens, h1, h2]

theorem opens_opn (m : Bool) : opens [opn m] = some [cls m] := by cases m <;> rfl

/-- The closing tokens of groups and arrays. -/
def Closes (arr : Bool) (close : Str) : Prop := match arr with
  | true => close = [']']
  | false => close = [] ∨ close = ['}']

theorem Closes.cls (m : Bool) : Closes m [cls m] := by
  cases m
  · exact .inr rfl
  · rfl

theorem head_key {env : Env} {im : Bool} {close k : Str} {p : PropNode} {st : St} (hc : Closes false close) (hk : SafeKey k) :
    head env im close k p st = headLabel env .last (p.addChild k .empty) st := by
  obtain ⟨_, ⟨c, hc1, hc2, hc3, hc4⟩, h1, h2, h3, h4⟩ := hk
  have hcl : close ≠ [']'] := by rcases hc with rfl | rfl <;> decide
  unfold head
  rw [if_pos hcl, if_pos ⟨h1, h3⟩, if_neg (by rw [hc1]; simpa using hc4)]
  rw [if_neg]
  simp [hc1, isGraph, hc2, hc3]

theorem SafeKey.close {close k : Str} (hc : Closes false close) (hk : SafeKey k) : k ≠ close := by
  rcases hc with rfl | rfl
  · exact SafeKey.ne hk
  · exact hk.2.2.2.1

/-- The tokens of one item are read as one child. -/
theorem runs_item (env : Env) (c : PropNode) : ∀ (arr : Bool) (k : Str), SafeItem arr k c → ∀ (close : Str), Closes arr close →
    ∀ (view : View) (im : Bool) (base : Nat) (p : PropNode) (rest : List Str) (fin : LexEnd) (ms : PropNode.Kids) (f : Bool)
      (r : PropNode × St), Runs env close view im base (p.addChild k (c.setAccessedRec false)) ⟨rest, fin, ms, f⟩ r →
      Runs env close view im base p ⟨toks arr k c ++ rest, fin, ms, f⟩ r := by
  induction c using PropNode.ind with
  | h v ks a ih =>
    intro arr k hs close hcl view im base p rest fin ms f r hr
    obtain ⟨hh, hk⟩ := SafeItem.head hs
    -- the children
    have hkids : ∀ (m : Bool) (close : Str), Closes m close → ∀ (l : PropNode.Kids), (∀ k c, (k, c) ∈ l → (k, c) ∈ ks) → SafeKids m l →
        ∀ (view : View) (im : Bool) (base : Nat) (p : PropNode) (rest : List Str) (fin : LexEnd) (ms : PropNode.Kids) (f : Bool)
          (r : PropNode × St),
          Runs env close view im base (p.withKids (p.kids ++ PropNode.setAccessedRecKids false l)) ⟨rest, fin, ms, f⟩ r →
          Runs env close view im base p ⟨toksKids m l ++ rest, fin, ms, f⟩ r := by
      intro m close hcl l
      induction l with
      | nil =>
        intro _ _ view im base p rest fin ms f r hr
        obtain ⟨v, ks, a⟩ := p
        simpa [toksKids, PropNode.setAccessedRecKids, PropNode.withKids, PropNode.kids, PropNode.value, PropNode.flag] using hr
      | cons e l ihl =>
        obtain ⟨k', c'⟩ := e
        intro hsub hsk view im base p rest fin ms f r hr
        rw [SafeKids] at hsk
        rw [toksKids, List.append_assoc]
        apply ih k' c' (hsub k' c' (by simp)) m k' hsk.1 close hcl
        apply ihl (fun k c hm => hsub k c (by simp [hm])) hsk.2
        rw [PropNode.setAccessedRecKids] at hr
        obtain ⟨v, ks, a⟩ := p
        simpa [PropNode.addChild, PropNode.withKids, PropNode.kids, PropNode.value, PropNode.flag] using hr
    have hinner : ∀ (view : View) (im : Bool) (w : Str), Runs env [cls (ks.all fun p => p.1.isEmpty)] view im ms.length (.mk w [] false)
        ⟨toksKids (ks.all fun p => p.1.isEmpty) ks ++ ([cls (ks.all fun p => p.1.isEmpty)] :: rest), fin, ms, f⟩
        (.mk w (PropNode.setAccessedRecKids false ks) false, ⟨rest, fin, ms, f⟩) := by
      intro view im w
      apply hkids _ _ (Closes.cls _) ks (fun _ _ h => h) hk
      have := Runs.close env [cls (ks.all fun p => p.1.isEmpty)] view im ms.length
        (.mk w (PropNode.setAccessedRecKids false ks) false) rest fin ms f
      rw [List.take_length] at this
      exact this
    rw [PropNode.setAccessedRec] at hr
    rw [toks]
    generalize hm : (ks.all fun p => p.1.isEmpty) = m at *
    cases arr with
    | true =>
      have hcl' : close = [']'] := hcl
      subst hcl'
      obtain ⟨rfl, hv⟩ := hh
      cases ks with
      | nil =>
        rw [List.isEmpty_nil, if_pos rfl] at hv
        obtain ⟨hv, h1, h2, h3⟩ := hv
        simp only [headToks, List.isEmpty_nil, if_true, Bool.true_eq_false, and_false, if_false, List.nil_append, List.append_nil,
          List.cons_append]
        exact Runs.text h2 h1 h3 (p1 := p.addChild [] .empty) (by simp [head]) (opens_text hv) (assign_text _ _ _ _ hv) (Nat.le_refl _)
          (by simpa [PropNode.setAccessedRecKids] using hr)
      | cons e ks =>
        rw [List.isEmpty_cons, if_neg (by simp)] at hv
        subst hv
        simp only [headToks, List.isEmpty_cons, if_true, and_self, if_false, List.nil_append,
          List.cons_append, Bool.false_eq_true, List.append_assoc]
        refine Runs.group (by cases m <;> decide) (by simp) (by cases m <;> decide) (p1 := p.addChild [] .empty) (by simp [head])
          (opens_opn m) (Nat.le_refl _) ?_ (by rw [fetch_addChild]; exact hinner _ _ _) (by rw [setLast_addChild]; exact hr)
        simp; omega
    | false =>
      obtain ⟨hkey, hv⟩ := hh
      have hop : ∀ cl, Closes false cl → [opn m] ≠ cl := by
        rintro cl (rfl | rfl) <;> cases m <;> decide
      cases ks with
      | nil =>
        simp only [headToks, List.isEmpty_nil, Bool.true_eq_false, and_false, if_false, Bool.false_eq_true, if_true, List.append_nil,
          List.cons_append, List.nil_append]
        refine Runs.text (SafeKey.close hcl hkey) (SafeKey.ne hkey) hkey.2.2.2.2.2 (p1 := p.addChild k .empty) (rest := rest) ?_ (opens_text hv)
          (assign_text _ _ _ _ hv) (by simp; omega) (by simpa [PropNode.setAccessedRecKids] using hr)
        rw [head_key hcl hkey]
        simp [headLabel, next_cons]
      | cons e ks =>
        by_cases hv0 : v = []
        · subst hv0
          simp only [headToks, List.isEmpty_cons, and_self, if_true, Bool.false_eq_true, if_false, List.append_nil,
            List.cons_append, List.nil_append, List.append_assoc]
          refine Runs.group (SafeKey.close hcl hkey) (SafeKey.ne hkey) hkey.2.2.2.2.2 (p1 := p.addChild k .empty)
            (inner := toksKids m (e :: ks) ++ ([cls m] :: rest)) (rest := rest) (v := [opn m]) ?_
            (opens_opn m) (by simp) (by simp; omega) (by rw [fetch_addChild]; exact hinner _ _ _) (by rw [setLast_addChild]; exact hr)
          rw [head_key hcl hkey]
          cases m <;> simp [headLabel, next_cons, opn]
        · simp only [headToks, List.isEmpty_cons, hv0, false_and, Bool.false_eq_true, if_false,
            List.cons_append, List.nil_append, List.append_assoc]
          refine Runs.text (SafeKey.close hcl hkey) (SafeKey.ne hkey) hkey.2.2.2.2.2 (p1 := p.addChild k .empty) (ts := ['='] :: v :: _)
            (rest := [opn m] :: (toksKids m (e :: ks) ++ ([cls m] :: rest))) ?_ (opens_text hv)
            (assign_text _ _ _ _ hv) (by simp) ?_
          · rw [head_key hcl hkey]
            simp [headLabel, next_cons]
          · refine Runs.group (hop _ hcl) (by simp) (by cases m <;> decide) (p1 := p.addChild k (.mk v [] false))
              (inner := toksKids m (e :: ks) ++ ([cls m] :: rest)) (rest := rest) (v := [opn m]) ?_
              (opens_opn m) (by simp) (by simp; omega) (by rw [fetch_addChild]; exact hinner _ _ _) (by rw [setLast_addChild]; exact hr)
            have hcl' : close ≠ [']'] := by rcases hcl with rfl | rfl <;> decide
            cases m <;> simp [head, hcl', opn, addChild_kids]

/-- The tokens of all children of the root. -/
theorem parse_toks {env : Env} {ks : PropNode.Kids} (hk : SafeKids false ks) {text : Str}
    (h : lexAll text = (toksKids false ks, .eof)) :
    parse env text = .ok (.mk [] (PropNode.setAccessedRecKids false ks) false, false) := by
  have hkids : ∀ (l : PropNode.Kids), SafeKids false l →
      ∀ (view : View) (im : Bool) (base : Nat) (p : PropNode) (fin : LexEnd) (ms : PropNode.Kids) (f : Bool) (r : PropNode × St),
        Runs env [] view im base (p.withKids (p.kids ++ PropNode.setAccessedRecKids false l)) ⟨[], fin, ms, f⟩ r →
        Runs env [] view im base p ⟨toksKids false l, fin, ms, f⟩ r := by
    intro l
    induction l with
    | nil =>
      intro _ view im base p fin ms f r hr
      obtain ⟨v, ks, a⟩ := p
      simpa [toksKids, PropNode.setAccessedRecKids, PropNode.withKids, PropNode.kids, PropNode.value, PropNode.flag] using hr
    | cons e l ihl =>
      obtain ⟨k', c'⟩ := e
      intro hsk view im base p fin ms f r hr
      rw [SafeKids] at hsk
      rw [toksKids]
      apply runs_item env c' false k' hsk.1 [] (.inl rfl)
      apply ihl hsk.2
      rw [PropNode.setAccessedRecKids] at hr
      obtain ⟨v, ks, a⟩ := p
      simpa [PropNode.addChild, PropNode.withKids, PropNode.kids, PropNode.value, PropNode.flag] using hr
  have hrun := hkids ks hk (fun p ms => (p, ms)) false 0 .empty .eof [] false
    (.mk [] (PropNode.setAccessedRecKids false ks) false, ⟨[], .eof, [], false⟩) (by
      unfold Runs
      rw [layer.eq_def]
      rfl)
  unfold Runs at hrun
  unfold parse
  rw [h]
  simp only [hrun]

/-- The accessed marks do not matter for equality. -/
theorem eq_norm (n : PropNode) : (n.setAccessedRec false).eq n = true := by
  induction n using PropNode.ind with
  | h v ks a ih =>
    have aux : ∀ l : PropNode.Kids, (∀ k c, (k, c) ∈ l → (c.setAccessedRec false).eq c = true) →
        (PropNode.setAccessedRecKids false l).length = l.length ∧ PropNode.eqKids (PropNode.setAccessedRecKids false l) l = true := by
      intro l
      induction l with
      | nil => intro _; exact ⟨rfl, rfl⟩
      | cons e l ihl =>
        obtain ⟨k, c⟩ := e
        intro hm
        have h1 := ihl (fun k c h => hm k c (by simp [h]))
        have h2 := hm k c (by simp)
        simp [PropNode.setAccessedRecKids, PropNode.eqKids, h1, h2]
    have h := aux ks ih
    rw [PropNode.setAccessedRec, PropNode.eq]
    simp [PropNode.value, PropNode.kids, h]

end Zml
end Xo
