import Verif.Spec.ZmlDoc
import Verif.Lemmas.ZmlRead

/-!
Reading the tokens of a document with macros and included files.
-/
namespace Xo
namespace Zml
open Spec

/-! ## Macros in scope -/

/-- The macros that the reader knows, and the scope of the specification. -/
def ScopeRel (ms : PropNode.Kids) (s : Scope) : Prop :=
  List.Forall₂ (fun (m : Str × PropNode) (e : Str × Option PropNode) => m.1 = e.1 ∧ ∀ n, e.2 = some n → m.2 = n) ms.reverse s

theorem findMacro_rel {ms : PropNode.Kids} {s : Scope} (h : ScopeRel ms s) (name : Str) :
    (∀ n, lookup s name = .ok n → findMacro name ms = some n) ∧ (lookup s name = .err → findMacro name ms = none) := by
  unfold findMacro
  unfold ScopeRel at h
  generalize ms.reverse = l at h
  induction h with
  | nil => simp [lookup]
  | @cons m e l s h1 _ ih =>
    obtain ⟨k, o⟩ := e
    obtain ⟨h1, h2⟩ := h1
    simp only at h1 h2
    rw [List.find?_cons]
    simp only [lookup]
    by_cases hk : k = name
    · rw [if_pos hk]
      simp only [h1, hk, decide_true, Option.map_some]
      cases o with
      | none => simp [Res.ofOptionUb]
      | some n => simp [Res.ofOptionUb, h2 n rfl]
    · rw [if_neg hk]
      simp only [h1, hk, decide_false]
      exact ih

theorem ScopeRel.push {ms : PropNode.Kids} {s : Scope} (h : ScopeRel ms s) (name : Str) (n : PropNode) (o : Option PropNode)
    (ho : ∀ m, o = some m → n = m) : ScopeRel (ms ++ [(name, n)]) ((name, o) :: s) := by
  unfold ScopeRel
  rw [List.reverse_append, List.reverse_singleton, List.singleton_append]
  exact .cons ⟨rfl, ho⟩ h

/-! ## Inline macros -/

theorem expand_plain (look : Str → Res Str) : ∀ {t : Str}, (∀ x y, t ≠ x ++ '$' :: '{' :: y) → expand look none t = .ok t
  | [], _ => by simp [expand]
  | [c], _ => by
    rw [expand]
    · simp [expand, Res.bind]
    · intro r h1 h2; cases h2
  | c :: d :: r, h => by
    rw [expand]
    · rw [expand_plain look (t := d :: r) (fun x y e => h (c :: x) y (by rw [e]; rfl))]; rfl
    · intro r' h1 h2
      cases h2
      exact h [] r (by rw [h1]; rfl)

theorem expand_upto (look : Str → Res Str) : ∀ (a r : Str), (∀ x y, a ++ ['$'] ≠ x ++ '$' :: '{' :: y) →
    expand look none (a ++ '$' :: '{' :: r) = (expand look (some []) r).bind fun t => .ok (a ++ t)
  | [], r, _ => by
    show expand look none ('$' :: '{' :: r) = _
    rw [expand]
    cases expand look (some []) r <;> rfl
  | c :: a, r, h => by
    have ih := expand_upto look a r fun x y e => h (c :: x) y (by simp [e])
    show expand look none (c :: (a ++ '$' :: '{' :: r)) = _
    rw [expand]
    · rw [ih]; cases expand look (some []) r <;> rfl
    · intro r' h1 h2
      cases a with
      | nil => cases h2
      | cons d a =>
        cases h2
        exact h [] (a ++ ['$']) (by rw [h1]; rfl)

theorem expand_name (look : Str → Res Str) (r : Str) : ∀ (n m : Str), '}' ∉ n →
    expand look (some m) (n ++ '}' :: r) = (look (m ++ n)).bind fun v => (expand look none r).bind fun t => .ok (v ++ t)
  | [], m, _ => by simp [expand]
  | c :: n, m, h => by
    have hc : c ≠ '}' := fun e => h (by simp [e])
    show expand look (some m) (c :: (n ++ '}' :: r)) = _
    rw [expand, if_neg hc, expand_name look r n (m ++ [c]) fun hm => h (by simp [hm])]
    simp

theorem expand_open (look : Str → Res Str) : ∀ (n m : Str), '}' ∉ n → expand look (some m) n = .err
  | [], m, _ => by simp [expand]
  | c :: n, m, h => by
    have hc : c ≠ '}' := fun e => h (by simp [e])
    rw [expand, if_neg hc, expand_open look n (m ++ [c]) fun hm => h (by simp [hm])]

theorem strFind_brace {t : Str} {i : Nat} (hi : i ≤ t.length) :
    match strFind t ['}'] i with
    | some j => ∃ n r, t.drop i = n ++ '}' :: r ∧ '}' ∉ n ∧ j = i + n.length
    | none => '}' ∉ t.drop i := by
  have h := strFind_spec t ['}'] i hi
  cases hf : strFind t ['}'] i with
  | none =>
    rw [hf] at h
    intro hm
    obtain ⟨a, b, e⟩ := List.append_of_mem hm
    refine h a.length ⟨by rw [e]; simp, ?_⟩
    rw [e, List.drop_left]
    exact ⟨b, rfl⟩
  | some j =>
    rw [hf] at h
    obtain ⟨h1, ⟨h2, r, h3⟩, h4⟩ := h
    refine ⟨(t.drop i).take (j - i), r, ?_, ?_, ?_⟩
    · conv_lhs => rw [← List.take_append_drop (j - i) (t.drop i), ← h3]
      rfl
    · intro hm
      obtain ⟨a, b, e⟩ := List.append_of_mem hm
      have hl : a.length < j - i := by
        have := congrArg List.length e
        simp only [List.length_take, List.length_append, List.length_cons] at this
        omega
      refine h4 a.length hl ⟨by omega, ?_⟩
      have e2 : t.drop i = a ++ '}' :: (b ++ (t.drop i).drop (j - i)) := by
        conv_lhs => rw [← List.take_append_drop (j - i) (t.drop i), e]
        simp
      rw [e2, List.drop_left]
      exact ⟨_, rfl⟩
    · rw [List.length_take]; omega

theorem inlineMacros_expand {ms : PropNode.Kids} {s : Scope} (h : ScopeRel ms s) (t : Str) :
    (∀ r, expand (fun n => (lookup s ('$' :: n)).map PropNode.value) none t = .ok r → inlineMacros ms t = some r) ∧
    (expand (fun n => (lookup s ('$' :: n)).map PropNode.value) none t = .err → inlineMacros ms t = none) := by
  induction hn : t.length using Nat.strongRecOn generalizing t with
  | ind m ih =>
    subst hn
    set look : Str → Res Str := fun n => (lookup s ('$' :: n)).map PropNode.value with hlook
    have hs := strFind_spec t ['$', '{'] 0 (Nat.zero_le _)
    rw [inlineMacros.eq_def]
    cases hf : strFind t ['$', '{'] 0 with
    | none =>
      rw [hf] at hs
      have hp : ∀ x y, t ≠ x ++ '$' :: '{' :: y := by
        intro x y e
        refine hs x.length ⟨by rw [e]; simp, ?_⟩
        rw [List.drop_zero, e, List.drop_left]
        exact ⟨y, rfl⟩
      rw [expand_plain look hp]
      simp
    | some i =>
      rw [hf] at hs
      obtain ⟨-, ⟨h2, r, h3⟩, h4⟩ := hs
      simp only [Nat.sub_zero, List.drop_zero] at h2 h3 h4
      have ht : t = t.take i ++ '$' :: '{' :: r := by
        conv_lhs => rw [← List.take_append_drop i t, ← h3]
        rfl
      have hal : (t.take i).length = i := by rw [List.length_take]; omega
      have hfirst : ∀ x y, t.take i ++ ['$'] ≠ x ++ '$' :: '{' :: y := by
        intro x y e
        have hl := congrArg List.length e
        simp only [List.length_append, List.length_cons, List.length_nil, hal] at hl
        refine h4 x.length (by omega) ⟨by omega, ?_⟩
        have e2 : t = x ++ '$' :: '{' :: (y ++ '{' :: r) := by
          have : t = (t.take i ++ ['$']) ++ '{' :: r := by rw [List.append_assoc]; exact ht
          rw [e] at this
          simpa using this
        rw [e2, List.drop_left]
        exact ⟨_, rfl⟩
      have hexp := expand_upto look (t.take i) r hfirst
      rw [← ht] at hexp
      rw [hexp]
      dsimp only
      have hb := strFind_brace h2
      have hdi : t.drop i = '$' :: '{' :: r := h3.symm
      cases hj : strFind t ['}'] i with
      | none =>
        rw [hj] at hb
        rw [hdi] at hb
        have : '}' ∉ r := fun hm => hb (by simp [hm])
        rw [expand_open look r [] this]
        exact ⟨fun _ h => by simp [Res.bind] at h, fun _ => rfl⟩
      | some j =>
        rw [hj] at hb
        obtain ⟨n, r', e, hn, rfl⟩ := hb
        rw [hdi] at e
        obtain ⟨n', rfl, e'⟩ : ∃ n', n = '$' :: '{' :: n' ∧ r = n' ++ '}' :: r' := by
          cases n with
          | nil => cases e
          | cons x n =>
            cases n with
            | nil => cases e
            | cons y n => cases e; exact ⟨n, rfl, rfl⟩
        have hn' : '}' ∉ n' := fun hm => hn (by simp [hm])
        rw [e', expand_name look r' n' [] hn']
        have hlen : t.length = i + (2 + n'.length + (1 + r'.length)) := by
          rw [ht]; simp only [List.length_append, hal, List.length_cons, e']; omega
        dsimp only
        have hcond : i + 2 ≤ i + ('$' :: '{' :: n').length ∧ i + ('$' :: '{' :: n').length < t.length := by
          simp only [List.length_cons]; omega
        rw [dif_pos hcond]
        have hname : (t.drop (i + 2)).take (i + ('$' :: '{' :: n').length - (i + 2)) = n' := by
          rw [← List.drop_drop, hdi, e']
          simp only [List.length_cons, List.drop_succ_cons, List.drop_zero]
          rw [show i + (n'.length + 1 + 1) - (i + 2) = n'.length by omega, List.take_left]
        have hrest : t.drop (i + ('$' :: '{' :: n').length + 1) = r' := by
          rw [show i + ('$' :: '{' :: n').length + 1 = i + (n'.length + 3) by simp; omega, ← List.drop_drop, hdi, e',
            show n'.length + 3 = n'.length + 1 + 1 + 1 by omega]
          simp only [List.drop_succ_cons]
          simp [List.drop_append]
        rw [hname, hrest]
        have ihr := ih r'.length (by omega) r' rfl
        have hm := findMacro_rel h ('$' :: n')
        simp only [List.nil_append]
        cases hl : lookup s ('$' :: n') with
        | err =>
          rw [hm.2 hl]
          simp [hlook, hl, Res.map, Res.bind]
        | ub => simp [hlook, hl, Res.map, Res.bind]
        | ok nd =>
          rw [hm.1 nd hl]
          have hlk : look n' = .ok nd.value := by simp [hlook, hl, Res.map, Res.bind]
          rw [hlk]
          dsimp only [Res.bind]
          cases hx : expand look none r' with
          | err => rw [ihr.2 hx]; simp
          | ub => simp
          | ok x => rw [ihr.1 x hx]; simp

/-! ## Values -/

theorem assign_val {view : View} {tg : Target} {p : PropNode} {ms : PropNode.Kids} {s : Scope} {b : Bool} {v : Val} (hv : v.Ok b)
    (h0 : ScopeRel (view p ms).2 s) (h1 : ∀ c, ScopeRel (view (put tg p ms c).1 (put tg p ms c).2).2 s)
    (hk : (fetch tg p ms).kids = []) :
    (∀ n, evalVal s v = .ok n → assign view tg p ms v.tok = some (put tg p ms n)) ∧
    (evalVal s v = .err → assign view tg p ms v.tok = none) := by
  cases v with
  | text t =>
    obtain ⟨a1, a2, -, -, -⟩ := hv
    have hi := inlineMacros_expand h0 t
    have hred : assign view tg p ms (Val.text t).tok =
        (inlineMacros (view p ms).2 t).map fun v => put tg p ms (.mk v [] false) := by
      show assign view tg p ms t = _
      unfold assign
      rw [if_neg a1, if_neg, hk]
      rintro ⟨b1, b2, b3⟩
      rcases a2 b2 with e | e
      · rw [e] at b1; simp at b1
      · exact b3 e
    rw [hred]
    unfold evalVal
    dsimp only
    cases he : expand (fun n => (lookup s ('$' :: n)).map PropNode.value) none t with
    | ok r => rw [hi.1 r he]; simp [Res.bind]
    | err => rw [hi.2 he]; simp [Res.bind]
    | ub => simp [Res.bind]
  | copy name =>
    obtain ⟨a1, a2, a3⟩ := hv
    have hred : assign view tg p ms (Val.copy name).tok = copyFrom (fun v => findMacro name v.2) view tg p ms := by
      show assign view tg p ms name = _
      unfold assign
      rw [if_neg (by rw [a1]; decide), if_pos ⟨a2, a1, a3⟩]
    rw [hred]
    unfold evalVal copyFrom
    dsimp only
    have hf := findMacro_rel h0 name
    cases hl : lookup s name with
    | ok n =>
      rw [hf.1 n hl]
      have hf2 := (findMacro_rel (h1 (.mk n.value [] false)) name).1 n hl
      simp only [Option.map_some, hf2, Option.getD_some, Res.bind]
      simp
    | err => rw [hf.2 hl]; simp [Res.bind]
    | ub => simp [Res.bind]

theorem valOpens {b : Bool} {v : Val} (h : v.Ok b) : opens v.tok = none := by
  cases v with
  | text t =>
    obtain ⟨-, -, h1, h2, -⟩ := h
    simp [Zml.opens, Val.tok, h1, h2]
  | copy name =>
    obtain ⟨h1, -, -⟩ := h
    have e1 : name ≠ ['{'] := by rintro rfl; simp at h1
    have e2 : name ≠ ['['] := by rintro rfl; simp at h1
    simp [Zml.opens, Val.tok, e1, e2]

theorem opens_bracket (a : Bool) : opens (bracket a) = some (unbracket a) := by cases a <;> rfl

/-! ## Steps of the reader -/

/-- An item with a value that is not a group. -/
theorem layer_value {env : Env} {n : Nat} {close : Str} {view : View} {im : Bool} {base : Nat} {p p1 : PropNode} {t v : Str} {ts : List Str}
    {st1 : St} {fin : LexEnd} {ms : PropNode.Kids} {f : Bool} {tg : Target} (h1 : t ≠ close) (h2 : t ≠ []) (h3 : t ≠ ['<', '<'])
    (hh : head env im close t p ⟨ts, fin, ms, f⟩ = .ok (.go tg p1 st1 v)) (ho : opens v = none) :
    layer env (n + 1) close view im base p ⟨t :: ts, fin, ms, f⟩ =
      match assign view tg p1 st1.macros v with
      | some (p', ms') => layer env n close view im base p' { st1 with macros := ms' }
      | none => fail env p1 st1 := by
  rw [layer.eq_def]
  simp only [next_cons, if_neg h1, if_neg h2, if_neg h3, hh, ho]
  rfl

/-- An item with a group or an array. -/
theorem layer_body {env : Env} {n : Nat} {close cl : Str} {view : View} {im : Bool} {base : Nat} {p p1 : PropNode} {t v : Str} {ts : List Str}
    {st1 : St} {fin : LexEnd} {ms : PropNode.Kids} {f : Bool} {tg : Target} (h1 : t ≠ close) (h2 : t ≠ []) (h3 : t ≠ ['<', '<'])
    (hh : head env im close t p ⟨ts, fin, ms, f⟩ = .ok (.go tg p1 st1 v)) (ho : opens v = some cl) :
    layer env (n + 1) close view im base p ⟨t :: ts, fin, ms, f⟩ =
      match layer env n cl (subView view tg p1) (im || tg.isMac) st1.macros.length (fetch tg p1 st1.macros) st1 with
      | .ok (c, st) => layer env n close view im base (put tg p1 st.macros c).1 { st with macros := (put tg p1 st.macros c).2 }
      | .err => .err | .ub => .ub | .div => .div := by
  rw [layer.eq_def]
  simp only [next_cons, if_neg h1, if_neg h2, if_neg h3, hh, ho]
  rfl

/-- An included file. -/
theorem layer_incl {env : Env} {n : Nat} {close : Str} {view : View} {im : Bool} {base : Nat} {p : PropNode} {g : Str} {ts : List Str}
    {fin : LexEnd} {ms : PropNode.Kids} {f : Bool} (h1 : ['<', '<'] ≠ close) :
    layer env (n + 1) close view im base p ⟨['<', '<'] :: g :: ['>', '>'] :: ts, fin, ms, f⟩ =
      match env.inc g with
      | .ok (ks, bad) => layer env n close view im base (p.withKids (p.kids ++ ks)) ⟨ts, fin, ms, f || bad⟩
      | .err => .err | .ub => .ub | .div => .div := by
  rw [layer.eq_def]
  simp [next_cons, if_neg h1]
  rfl

theorem LabelOk.ne_close {close k : Str} (hc : Closes false close) (hk : LabelOk k) : k ≠ close := by
  rcases hc with rfl | rfl
  · rintro rfl; obtain ⟨⟨c, h, -⟩, -⟩ := hk; simp at h
  · exact hk.2.2.1

theorem LabelOk.ne_nil {k : Str} (hk : LabelOk k) : k ≠ [] := LabelOk.ne_close (.inl rfl) hk

theorem head_label {env : Env} {im : Bool} {close k : Str} {p : PropNode} {st : St} (hc : Closes false close) (hk : LabelOk k) :
    head env im close k p st = headLabel env .last (p.addChild k .empty) st := by
  obtain ⟨⟨c, hc1, hc2, hc3, hc4⟩, h1, h2, h3, h4⟩ := hk
  have hcl : close ≠ [']'] := by rcases hc with rfl | rfl <;> decide
  unfold head
  rw [if_pos hcl, if_pos ⟨h1, h3⟩, if_neg (by rw [hc1]; simpa using hc4)]
  rw [if_neg]
  simp [hc1, isGraph, hc2, hc3]

theorem head_macro {env : Env} {close k : Str} {p : PropNode} {st : St} (hc : Closes false close) (hk : k.head? = some '$') :
    head env false close k p st = headLabel env (.mac st.macros.length) p { st with macros := st.macros ++ [(k, .empty)] } := by
  have hcl : close ≠ [']'] := by rcases hc with rfl | rfl <;> decide
  have e1 : k ≠ ['{'] := by rintro rfl; simp at hk
  have e2 : k ≠ ['['] := by rintro rfl; simp at hk
  unfold head
  rw [if_pos hcl, if_pos ⟨e1, e2⟩, if_pos hk, if_neg (by simp)]

theorem headLabel_sep {env : Env} {tg : Target} {p : PropNode} {sep t : Str} {ts : List Str} {fin : LexEnd} {ms : PropNode.Kids} {f : Bool}
    (h : SepOk sep) : headLabel env tg p ⟨sepToks sep ++ t :: ts, fin, ms, f⟩ = .ok (.go tg p ⟨ts, fin, ms, f⟩ t) := by
  rcases h with rfl | rfl <;> rfl

theorem headLabel_body {env : Env} {tg : Target} {p : PropNode} {sep : Str} {a : Bool} {ts : List Str} {fin : LexEnd} {ms : PropNode.Kids} {f : Bool}
    (h : sep = [] ∨ SepOk sep) : headLabel env tg p ⟨sepToks sep ++ bracket a :: ts, fin, ms, f⟩ = .ok (.go tg p ⟨ts, fin, ms, f⟩ (bracket a)) := by
  rcases h with rfl | h
  · cases a <;> rfl
  · exact headLabel_sep h

theorem head_array {env : Env} {im : Bool} {t : Str} {p : PropNode} {st : St} :
    head env im [']'] t p st = .ok (.go .last (p.addChild [] .empty) st t) := by simp [head]

theorem head_more {env : Env} {im : Bool} {close k : Str} {a : Bool} {p c : PropNode} {st : St} (hc : Closes false close) :
    head env im close (bracket a) (p.addChild k c) st = .ok (.go .last (p.addChild k c) st (bracket a)) := by
  have hcl : close ≠ [']'] := by rcases hc with rfl | rfl <;> decide
  cases a <;> simp [head, hcl, bracket, addChild_kids]

/-- What the reader sees of the macros. -/
def Sees (view : View) (im : Bool) (ms : PropNode.Kids) (s : Scope) : Prop :=
  (∀ p, ScopeRel (view p ms).2 s) ∧ (im = false → ∀ p ms', (view p ms').2 = ms')

theorem Sees.sub {view : View} {im : Bool} {ms : PropNode.Kids} {s : Scope} (h : Sees view im ms s) (p : PropNode) :
    Sees (subView view .last p) im ms s := ⟨fun c => h.1 _, fun hi c ms' => h.2 hi _ _⟩

theorem Sees.rel {view : View} {ms : PropNode.Kids} {s : Scope} (h : Sees view false ms s) : ScopeRel ms s := by
  have := h.1 .empty
  rwa [h.2 rfl] at this

theorem Sees.push {view : View} {ms : PropNode.Kids} {s : Scope} (h : Sees view false ms s) (name : Str) (n : PropNode)
    (o : Option PropNode) (ho : ∀ m, o = some m → n = m) : Sees view false (ms ++ [(name, n)]) ((name, o) :: s) :=
  ⟨fun p => by rw [h.2 rfl]; exact h.rel.push name n o ho, h.2⟩

theorem modify_last (ms : PropNode.Kids) (name : Str) (n c : PropNode) :
    (ms ++ [(name, n)]).modify ms.length (fun e => (e.1, c)) = ms ++ [(name, c)] := by
  induction ms with
  | nil => rfl
  | cons e ms ih => rw [List.cons_append, List.length_cons, List.modify_succ_cons, ih]; rfl

theorem put_mac (p : PropNode) (ms : PropNode.Kids) (name : Str) (n c : PropNode) :
    put (.mac ms.length) p (ms ++ [(name, n)]) c = (p, ms ++ [(name, c)]) := by
  simp only [put, modify_last]

theorem Sees.body {view : View} {ms : PropNode.Kids} {s : Scope} (h : Sees view false ms s) (name : Str) (p : PropNode) :
    Sees (subView view (.mac ms.length) p) true (ms ++ [(name, .empty)]) ((name, none) :: s) := by
  refine ⟨fun c => ?_, fun h => by cases h⟩
  unfold subView
  rw [put_mac, h.2 rfl]
  exact h.rel.push name c none (by simp)

theorem assign_label {view : View} {im : Bool} {ms : PropNode.Kids} {s : Scope} (h : Sees view im ms s) {b : Bool} {v : Val} (hv : v.Ok b)
    (p : PropNode) (k : Str) :
    (∀ n, evalVal s v = .ok n → assign view .last (p.addChild k .empty) ms v.tok = some (p.addChild k n, ms)) ∧
    (evalVal s v = .err → assign view .last (p.addChild k .empty) ms v.tok = none) := by
  have := assign_val (tg := .last) (p := p.addChild k .empty) hv (h.1 _) (fun c => h.1 _) (by rw [fetch_addChild]; rfl)
  refine ⟨fun n hn => ?_, this.2⟩
  rw [this.1 n hn]
  simp [put, setLast_addChild]

theorem assign_macro {view : View} {ms : PropNode.Kids} {s : Scope} (h : Sees view false ms s) {b : Bool} {v : Val} (hv : v.Ok b)
    (p : PropNode) (name : Str) :
    (∀ n, evalVal ((name, none) :: s) v = .ok n →
      assign view (.mac ms.length) p (ms ++ [(name, .empty)]) v.tok = some (p, ms ++ [(name, n)])) ∧
    (evalVal ((name, none) :: s) v = .err → assign view (.mac ms.length) p (ms ++ [(name, .empty)]) v.tok = none) := by
  have h0 := fun c => (h.push name c none (by simp)).1
  have := assign_val (view := view) (tg := .mac ms.length) (p := p) (ms := ms ++ [(name, .empty)]) hv (h0 _ _)
    (fun c => by rw [put_mac]; exact h0 _ _) (by simp [fetch, PropNode.empty, PropNode.kids])
  refine ⟨fun n hn => ?_, this.2⟩
  rw [this.1 n hn, put_mac]

/-! ## Documents -/

/-- The included files are what the reader loads. -/
def Loads (env : Env) (inc : Str → Res PropNode.Kids) : Prop := ∀ f,
  (∀ ks, inc f = .ok ks → env.inc f = .ok (ks, false)) ∧
  (inc f = .err → (env.throws = true → env.inc f = .err) ∧ ∀ ks bad, env.inc f = .ok (ks, bad) → bad = true)

theorem bind_ok_iff {α β : Type} {x : Res α} {g : α → Res β} {b : β} : x.bind g = .ok b ↔ ∃ a, x = .ok a ∧ g a = .ok b := by
  cases x <;> simp [Res.bind]

theorem Runs.of {env : Env} {n : Nat} {close : Str} {view : View} {im : Bool} {base : Nat} {p : PropNode} {st : St} {r : PropNode × St}
    (h : layer env n close view im base p st = .ok r) (hn : n ≤ st.toks.length + 1) : Runs env close view im base p st r := by
  unfold Runs
  rw [layer_mono_le env hn (by rw [h]; simp), h]

theorem kids_append (p : PropNode) (a b : PropNode.Kids) :
    (p.withKids (p.kids ++ a)).withKids ((p.withKids (p.kids ++ a)).kids ++ b) = p.withKids (p.kids ++ (a ++ b)) := by
  obtain ⟨v, ks, c⟩ := p
  simp [PropNode.withKids, PropNode.kids, PropNode.value, PropNode.flag]

theorem addChild_append (p : PropNode) (k : Str) (n : PropNode) (b : PropNode.Kids) :
    (p.addChild k n).withKids ((p.addChild k n).kids ++ b) = p.withKids (p.kids ++ ((k, n) :: b)) := by
  obtain ⟨v, ks, c⟩ := p
  simp [PropNode.withKids, PropNode.kids, PropNode.value, PropNode.flag, PropNode.addChild]

theorem withKids_nil (p : PropNode) : p.withKids (p.kids ++ []) = p := by
  obtain ⟨v, ks, c⟩ := p
  simp [PropNode.withKids, PropNode.kids, PropNode.value, PropNode.flag]

theorem Closes.unbracket (a : Bool) : Closes a (unbracket a) := by
  cases a
  · exact .inr rfl
  · rfl

theorem Closes.ne_incl {a : Bool} {close : Str} (h : Closes a close) : ['<', '<'] ≠ close := by
  cases a
  · rcases h with rfl | rfl <;> decide
  · have : close = [']'] := h
    subst this; decide

theorem Closes.ne_bracket {a : Bool} {close : Str} (h : Closes a close) (b : Bool) : bracket b ≠ close := by
  cases a
  · rcases h with rfl | rfl <;> cases b <;> decide
  · have : close = [']'] := h
    subst this; cases b <;> decide

theorem macro_ne {close name : Str} (h : Closes false close) (hn : name.head? = some '$') : name ≠ close ∧ name ≠ [] ∧ name ≠ ['<', '<'] := by
  refine ⟨?_, ?_, ?_⟩
  · rcases h with rfl | rfl <;> rintro rfl <;> simp at hn
  · rintro rfl; simp at hn
  · rintro rfl; simp at hn

theorem elem_ne {v : Val} (h : v.Ok true) : v.tok ≠ [']'] ∧ v.tok ≠ [] ∧ v.tok ≠ ['<', '<'] := by
  cases v with
  | text t => obtain ⟨-, -, -, -, h⟩ := h; exact ⟨(h rfl).2.1, (h rfl).1, (h rfl).2.2⟩
  | copy name =>
    obtain ⟨h, -, -⟩ := h
    refine ⟨?_, ?_, ?_⟩ <;> (show name ≠ _) <;> rintro rfl <;> simp at h

/-- Reading the tokens of a document appends the children it describes. -/
theorem runs_doc {env : Env} {inc : Str → Res PropNode.Kids} (hinc : Loads env inc) (d : Doc) :
    ∀ {a im : Bool}, d.Ok a im → ∀ {close : Str}, Closes a close →
    ∀ {view : View} {base : Nat} {p : PropNode} {rest : List Str} {fin : LexEnd} {ms : PropNode.Kids} {f : Bool} {s : Scope}
      {ks : PropNode.Kids}, Sees view im ms s → eval inc s d = .ok ks →
    ∃ defs, ∀ r, Runs env close view im base (p.withKids (p.kids ++ ks)) ⟨rest, fin, ms ++ defs, f⟩ r →
      Runs env close view im base p ⟨d.toks a ++ rest, fin, ms, f⟩ r := by
  have inner : ∀ {body : Doc} {arr im : Bool}, (∀ {close : Str}, Closes arr close →
      ∀ {view : View} {base : Nat} {p : PropNode} {rest : List Str} {fin : LexEnd} {ms : PropNode.Kids} {f : Bool} {s : Scope}
        {ks : PropNode.Kids}, Sees view im ms s → eval inc s body = .ok ks →
      ∃ defs, ∀ r, Runs env close view im base (p.withKids (p.kids ++ ks)) ⟨rest, fin, ms ++ defs, f⟩ r →
        Runs env close view im base p ⟨body.toks arr ++ rest, fin, ms, f⟩ r) →
      ∀ {view : View} {p : PropNode} {rest : List Str} {fin : LexEnd} {ms : PropNode.Kids} {f : Bool} {s : Scope}
        {ks : PropNode.Kids}, Sees view im ms s → eval inc s body = .ok ks →
        Runs env (unbracket arr) view im ms.length p ⟨body.toks arr ++ unbracket arr :: rest, fin, ms, f⟩
          (p.withKids (p.kids ++ ks), ⟨rest, fin, ms, f⟩) := by
    intro body arr im ih view p rest fin ms f s ks hs he
    obtain ⟨defs, h⟩ := ih (Closes.unbracket arr) hs he (base := ms.length) (p := p) (rest := unbracket arr :: rest) (fin := fin) (f := f)
    have := Runs.close env (unbracket arr) view im ms.length (p.withKids (p.kids ++ ks)) rest fin (ms ++ defs) f
    rw [List.take_left] at this
    exact h _ this
  induction d with
  | nil =>
    intro a im _ close _ view base p rest fin ms f s ks _ he
    cases he
    refine ⟨[], fun r hr => ?_⟩
    rw [withKids_nil, List.append_nil] at hr
    exact hr
  | leaf label sep v rest0 ih =>
    intro a im hok close hcl view base p rest fin ms f s ks hs he
    obtain ⟨hl, hv, hr0⟩ := hok
    obtain ⟨n, hn, he⟩ := bind_ok_iff.1 he
    obtain ⟨ks', hk, he⟩ := bind_ok_iff.1 he
    cases he
    obtain ⟨defs, hrun⟩ := ih hr0 hcl hs hk (base := base) (p := p.addChild label n) (rest := rest) (fin := fin) (f := f)
    refine ⟨defs, fun r hr => ?_⟩
    rw [addChild_append] at hrun
    have hrun := hrun r hr
    cases a with
    | true =>
      have hcl' : close = [']'] := hcl
      subst hcl'
      rw [if_pos rfl] at hl
      subst hl
      obtain ⟨e1, e2, e3⟩ := elem_ne hv
      rw [Doc.toks, if_pos rfl, List.nil_append, List.cons_append]
      show layer env (_ + 1 + 1) _ _ _ _ _ _ = _
      rw [layer_value e1 e2 e3 head_array (valOpens hv), (assign_label hs hv p []).1 n hn]
      exact hrun.le (by simp)
    | false =>
      rw [if_neg (by simp)] at hl
      rw [Doc.toks, if_neg (by simp), List.cons_append, List.cons_append, List.append_assoc, List.cons_append]
      show layer env (_ + 1 + 1) _ _ _ _ _ _ = _
      rw [layer_value (LabelOk.ne_close hcl hl.1) (LabelOk.ne_nil hl.1) hl.1.2.2.2.2
        (by rw [head_label hcl hl.1, headLabel_sep hl.2]) (valOpens hv), (assign_label hs hv p label).1 n hn]
      exact hrun.le (by simp; omega)
  | group label sep arr body rest0 ihb ih =>
    intro a im hok close hcl view base p rest fin ms f s ks hs he
    obtain ⟨hl, hb0, hr0⟩ := hok
    obtain ⟨b, hb, he⟩ := bind_ok_iff.1 he
    obtain ⟨ks', hk, he⟩ := bind_ok_iff.1 he
    cases he
    obtain ⟨defs, hrun⟩ := ih hr0 hcl hs hk (base := base) (p := p.addChild label (.mk [] b false)) (rest := rest) (fin := fin) (f := f)
    refine ⟨defs, fun r hr => ?_⟩
    rw [addChild_append] at hrun
    have hrun := hrun r hr
    have hin := inner (ihb hb0) (hs.sub (p.addChild label .empty)) hb (p := .empty) (rest := rest0.toks a ++ rest) (fin := fin) (f := f)
    have hem : PropNode.empty.withKids (PropNode.empty.kids ++ b) = .mk [] b false := rfl
    rw [hem] at hin
    cases a with
    | true =>
      have hcl' : close = [']'] := hcl
      subst hcl'
      rw [if_pos rfl] at hl
      subst hl
      rw [Doc.toks, if_pos rfl, List.nil_append, List.cons_append, List.append_assoc, List.cons_append]
      show layer env (_ + 1 + 1) _ _ _ _ _ _ = _
      rw [layer_body (Closes.ne_bracket hcl arr) (by cases arr <;> decide) (by cases arr <;> decide) head_array (opens_bracket arr)]
      rw [fetch_addChild, show (im || Target.last.isMac) = im by simp [Target.isMac], hin.le (by simp)]
      simp only [put, setLast_addChild]
      exact hrun.le (by simp; omega)
    | false =>
      rw [if_neg (by simp)] at hl
      rw [Doc.toks, if_neg (by simp), List.cons_append, List.cons_append, List.append_assoc, List.cons_append, List.append_assoc,
        List.cons_append]
      show layer env (_ + 1 + 1) _ _ _ _ _ _ = _
      rw [layer_body (LabelOk.ne_close hcl hl.1) (LabelOk.ne_nil hl.1) hl.1.2.2.2.2
        (by rw [head_label hcl hl.1, headLabel_body hl.2]) (opens_bracket arr)]
      rw [fetch_addChild, show (im || Target.last.isMac) = im by simp [Target.isMac], hin.le (by simp; omega)]
      simp only [put, setLast_addChild]
      exact hrun.le (by simp; omega)
  | extend label sep v arr body rest0 ihb ih =>
    intro a im hok close hcl view base p rest fin ms f s ks hs he
    obtain ⟨rfl, hl, hsep, hv, hb0, hr0⟩ := hok
    obtain ⟨n, hn, he⟩ := bind_ok_iff.1 he
    obtain ⟨b, hb, he⟩ := bind_ok_iff.1 he
    obtain ⟨ks', hk, he⟩ := bind_ok_iff.1 he
    cases he
    obtain ⟨defs, hrun⟩ := ih hr0 hcl hs hk (base := base) (p := p.addChild label (.mk n.value (n.kids ++ b) false)) (rest := rest)
      (fin := fin) (f := f)
    refine ⟨defs, fun r hr => ?_⟩
    rw [addChild_append] at hrun
    have hrun := hrun r hr
    have hin := inner (ihb hb0) (hs.sub (p.addChild label n)) hb (p := n) (rest := rest0.toks false ++ rest) (fin := fin) (f := f)
    have hfl : n.withKids (n.kids ++ b) = .mk n.value (n.kids ++ b) false := by
      cases v with
      | text t =>
        obtain ⟨x, -, hx⟩ := bind_ok_iff.1 hn
        cases hx; rfl
      | copy name =>
        obtain ⟨x, -, hx⟩ := bind_ok_iff.1 hn
        cases hx; rfl
    rw [hfl] at hin
    rw [Doc.toks, List.cons_append, List.append_assoc, List.cons_append, List.cons_append, List.append_assoc, List.cons_append]
    show layer env (_ + 1 + 1) _ _ _ _ _ _ = _
    rw [layer_value (LabelOk.ne_close hcl hl) (LabelOk.ne_nil hl) hl.2.2.2.2
      (by rw [head_label hcl hl, headLabel_sep hsep]) (valOpens hv), (assign_label hs hv p label).1 n hn]
    dsimp only
    have : ∀ m, (List.length (sepToks sep ++ v.tok :: bracket arr :: (body.toks arr ++ unbracket arr :: (rest0.toks false ++ rest))) + 1) = m →
        layer env m close view im base (p.addChild label n)
          ⟨bracket arr :: (body.toks arr ++ unbracket arr :: (rest0.toks false ++ rest)), fin, ms, f⟩ = .ok r := by
      intro m hm
      obtain ⟨m, rfl⟩ : ∃ k, m = k + 1 := ⟨m - 1, by omega⟩
      rw [layer_body (Closes.ne_bracket hcl arr) (by cases arr <;> decide) (by cases arr <;> decide) (head_more hcl) (opens_bracket arr)]
      rw [fetch_addChild, show (im || Target.last.isMac) = im by simp [Target.isMac], hin.le (by simp at hm ⊢; omega)]
      simp only [put, setLast_addChild]
      exact hrun.le (by simp at hm ⊢; omega)
    exact this _ rfl
  | define name sep v rest0 ih =>
    intro a im hok close hcl view base p rest fin ms f s ks hs he
    obtain ⟨rfl, rfl, hname, hsep, hv, hr0⟩ := hok
    obtain ⟨n, hn, he⟩ := bind_ok_iff.1 he
    obtain ⟨defs, hrun⟩ := ih hr0 hcl (hs.push name n (some n) (by simp)) he (base := base) (p := p) (rest := rest) (fin := fin) (f := f)
    refine ⟨(name, n) :: defs, fun r hr => ?_⟩
    have hrun := hrun r (by simpa using hr)
    obtain ⟨e1, e2, e3⟩ := macro_ne hcl hname
    rw [Doc.toks, List.cons_append, List.append_assoc, List.cons_append]
    show layer env (_ + 1 + 1) _ _ _ _ _ _ = _
    rw [layer_value e1 e2 e3 (by rw [head_macro hcl hname, headLabel_sep hsep]) (valOpens hv)]
    dsimp only
    rw [(assign_macro hs hv p name).1 n hn]
    exact hrun.le (by simp; omega)
  | defineGroup name sep arr body rest0 ihb ih =>
    intro a im hok close hcl view base p rest fin ms f s ks hs he
    obtain ⟨rfl, rfl, hname, hsep, hb0, hr0⟩ := hok
    obtain ⟨b, hb, he⟩ := bind_ok_iff.1 he
    obtain ⟨defs, hrun⟩ := ih hr0 hcl (hs.push name (.mk [] b false) (some (.mk [] b false)) (by simp)) he (base := base) (p := p)
      (rest := rest) (fin := fin) (f := f)
    refine ⟨(name, .mk [] b false) :: defs, fun r hr => ?_⟩
    have hrun := hrun r (by simpa using hr)
    have hin := inner (ihb hb0) (hs.body name p) hb (p := .empty) (rest := rest0.toks false ++ rest) (fin := fin) (f := f)
    have hem : PropNode.empty.withKids (PropNode.empty.kids ++ b) = .mk [] b false := rfl
    rw [hem] at hin
    obtain ⟨e1, e2, e3⟩ := macro_ne hcl hname
    rw [Doc.toks, List.cons_append, List.append_assoc, List.cons_append, List.append_assoc, List.cons_append]
    show layer env (_ + 1 + 1) _ _ _ _ _ _ = _
    rw [layer_body e1 e2 e3 (by rw [head_macro hcl hname, headLabel_body hsep]) (opens_bracket arr)]
    dsimp only
    have hfe : fetch (.mac ms.length) p (ms ++ [(name, .empty)]) = .empty := by simp [fetch]
    rw [hfe, show (false || (Target.mac ms.length).isMac) = true from rfl, hin.le (by simp; omega)]
    dsimp only
    rw [put_mac]
    exact hrun.le (by simp; omega)
  | incl g rest0 ih =>
    intro a im hok close hcl view base p rest fin ms f s ks hs he
    obtain ⟨b, hb, he⟩ := bind_ok_iff.1 he
    obtain ⟨ks', hk, he⟩ := bind_ok_iff.1 he
    cases he
    obtain ⟨defs, hrun⟩ := ih hok hcl hs hk (base := base) (p := p.withKids (p.kids ++ b)) (rest := rest) (fin := fin) (f := f)
    refine ⟨defs, fun r hr => ?_⟩
    rw [kids_append] at hrun
    have hrun := hrun r hr
    rw [Doc.toks, List.cons_append, List.cons_append, List.cons_append]
    show layer env (_ + 1 + 1) _ _ _ _ _ _ = _
    rw [layer_incl hcl.ne_incl, (hinc g).1 b hb]
    dsimp only
    rw [Bool.or_false]
    exact hrun.le (by simp)

/-! ## Errors -/

theorem next_failed {env : Env} {st st' : St} {t : Str} (h : next env st = .ok (t, st')) (hf : st.failed = true) : st'.failed = true := by
  unfold next at h
  split at h
  · cases h; exact hf
  · split at h
    · cases h; exact hf
    · split at h
      · cases h
      · cases h; rfl
    · cases h

theorem stopHead_failed {env : Env} {p p' : PropNode} {st st' : St} (h : stopHead env p st = .ok (.stop p' st')) : st'.failed = true := by
  unfold stopHead at h
  split at h
  · cases h
  · cases h; rfl

theorem headLabel_failed {env : Env} {tg : Target} {p : PropNode} {st : St} {hd : Head} (h : headLabel env tg p st = .ok hd)
    (hf : st.failed = true) : match (generalizing := false) hd with
    | .stop _ st' => st'.failed = true
    | .go _ _ st' _ => st'.failed = true := by
  unfold headLabel at h
  cases hn : next env st with
  | ok r =>
    obtain ⟨t, st1⟩ := r
    have h1 := next_failed hn hf
    rw [hn] at h
    dsimp only at h
    split at h
    · cases hn2 : next env st1 with
      | ok r =>
        obtain ⟨t2, st2⟩ := r
        rw [hn2] at h
        cases h
        exact next_failed hn2 h1
      | err => rw [hn2] at h; cases h
      | ub => rw [hn2] at h; cases h
      | div => rw [hn2] at h; cases h
    · split at h
      · unfold stopHead at h
        split at h
        · cases h
        · cases h; rfl
      · cases h; exact h1
  | err => rw [hn] at h; cases h
  | ub => rw [hn] at h; cases h
  | div => rw [hn] at h; cases h

theorem head_failed {env : Env} {im : Bool} {close t : Str} {p : PropNode} {st : St} {hd : Head} (h : head env im close t p st = .ok hd)
    (hf : st.failed = true) : match (generalizing := false) hd with
    | .stop _ st' => st'.failed = true
    | .go _ _ st' _ => st'.failed = true := by
  unfold head at h
  split at h
  · split at h
    · split at h
      · split at h
        · cases h
        · exact headLabel_failed h hf
      · split at h
        · unfold stopHead at h
          split at h
          · cases h
          · cases h; rfl
        · exact headLabel_failed h hf
    · split at h
      · unfold stopHead at h
        split at h
        · cases h
        · cases h; rfl
      · cases h; exact hf
  · cases h; exact hf

/-- An error that was set stays set. -/
theorem layer_failed {env : Env} : ∀ {n : Nat} {close : Str} {view : View} {im : Bool} {base : Nat} {p p' : PropNode} {st st' : St},
    layer env n close view im base p st = .ok (p', st') → st.failed = true → st'.failed = true := by
  intro n
  induction n with
  | zero => intro close view im base p p' st st' h; cases h
  | succ n ih =>
    intro close view im base p p' st st' h hf
    rw [layer.eq_def] at h
    dsimp only at h
    cases hn : next env st with
    | err => rw [hn] at h; cases h
    | ub => rw [hn] at h; cases h
    | div => rw [hn] at h; cases h
    | ok r =>
      obtain ⟨t, st1⟩ := r
      have h1 := next_failed hn hf
      rw [hn] at h
      dsimp only at h
      split at h
      · cases h; exact h1
      · split at h
        · unfold fail at h
          split at h
          · cases h
          · cases h; rfl
        · split at h
          · split at h
            · next f st2 hn2 =>
              split at h
              · next e st3 hn3 =>
                split at h
                · cases h
                · split at h
                  · refine ih h ?_
                    simp [next_failed hn3 (next_failed hn2 h1)]
                  · cases h
                  · cases h
                  · cases h
              · cases h
              · cases h
              · cases h
            · cases h
            · cases h
            · cases h
          · split at h
            · next p2 st2 hh =>
              cases h
              exact head_failed hh h1
            · next tg p2 st2 v hh =>
              have h2 := head_failed hh h1
              dsimp only at h2
              split at h
              · split at h
                · next c st3 hl =>
                  have h3 : st3.failed = true := ih hl h2
                  exact ih h h3
                · cases h
                · cases h
                · cases h
              · split at h
                · exact ih h h2
                · unfold fail at h
                  split at h
                  · cases h
                  · cases h; rfl
            · cases h
            · cases h
            · cases h

/-- Reading ends with an error: an exception, or an error that was reported. -/
def Fails (env : Env) (o : Out (PropNode × St)) : Prop :=
  (env.throws = true → o = .err) ∧ ∀ p st, o = .ok (p, st) → st.failed = true

theorem fails_fail (env : Env) (p : PropNode) (st : St) : Fails env (fail env p st) := by
  unfold fail
  constructor
  · intro h; rw [if_pos h]
  · intro p' st' h
    split at h
    · cases h
    · cases h; rfl

theorem bind_err_iff {α β : Type} {x : Res α} {g : α → Res β} :
    x.bind g = .err ↔ x = .err ∨ ∃ a, x = .ok a ∧ g a = .err := by
  cases x <;> simp [Res.bind]

theorem fails_body {env : Env} {x : Out (PropNode × St)} {k : PropNode → St → Out (PropNode × St)} (hx : Fails env x)
    (hk : ∀ p st p' st', st.failed = true → k p st = .ok (p', st') → st'.failed = true) :
    Fails env (match (generalizing := false) x with | .ok (c, st) => k c st | .err => .err | .ub => .ub | .div => .div) := by
  constructor
  · intro h; rw [hx.1 h]
  · intro p' st' h
    cases x with
    | ok r => obtain ⟨p, st⟩ := r; exact hk p st p' st' (hx.2 p st rfl) h
    | err => cases h
    | ub => cases h
    | div => cases h

/-- A document with an undefined name or an unreadable file is an error. -/
theorem fails_doc {env : Env} {inc : Str → Res PropNode.Kids} (hinc : Loads env inc) (d : Doc) :
    ∀ {a im : Bool}, d.Ok a im → ∀ {close : Str}, Closes a close →
    ∀ {view : View} {base : Nat} {p : PropNode} {rest : List Str} {fin : LexEnd} {ms : PropNode.Kids} {f : Bool} {s : Scope},
      Sees view im ms s → eval inc s d = .err → ∀ n, (d.toks a ++ rest).length < n →
    Fails env (layer env n close view im base p ⟨d.toks a ++ rest, fin, ms, f⟩) := by
  have inner : ∀ {body : Doc} {arr im : Bool}, body.Ok arr im →
      ∀ {view : View} {p : PropNode} {rest : List Str} {fin : LexEnd} {ms : PropNode.Kids} {f : Bool} {s : Scope}
        {ks : PropNode.Kids}, Sees view im ms s → eval inc s body = .ok ks →
        Runs env (unbracket arr) view im ms.length p ⟨body.toks arr ++ unbracket arr :: rest, fin, ms, f⟩
          (p.withKids (p.kids ++ ks), ⟨rest, fin, ms, f⟩) := by
    intro body arr im hok view p rest fin ms f s ks hs he
    obtain ⟨defs, h⟩ := runs_doc hinc body hok (Closes.unbracket arr) hs he (base := ms.length) (p := p) (rest := unbracket arr :: rest)
      (fin := fin) (f := f)
    have := Runs.close env (unbracket arr) view im ms.length (p.withKids (p.kids ++ ks)) rest fin (ms ++ defs) f
    rw [List.take_left] at this
    exact h _ this
  induction d with
  | nil => intro a im _ close _ view base p rest fin ms f s _ he; cases he
  | leaf label sep v rest0 ih =>
    intro a im hok close hcl view base p rest fin ms f s hs he n hn
    obtain ⟨hl, hv, hr0⟩ := hok
    obtain ⟨n, rfl⟩ : ∃ k, n = k + 1 := ⟨n - 1, by omega⟩
    have key : ∀ {p1 : PropNode} {st1 : St}, (rest0.toks a ++ rest).length < n → Fails env
        (match assign view .last (p.addChild label .empty) ms v.tok with
          | some (p', ms') => layer env n close view im base p' { toks := rest0.toks a ++ rest, fin := fin, macros := ms', failed := f }
          | none => fail env p1 st1) := by
      intro p1 st1 hlen
      rcases bind_err_iff.1 he with he | ⟨nd, hnd, he⟩
      · rw [(assign_label hs hv p label).2 he]; exact fails_fail _ _ _
      · rw [(assign_label hs hv p label).1 nd hnd]
        rcases bind_err_iff.1 he with he | ⟨ks, -, he⟩
        · exact ih hr0 hcl hs he n hlen
        · cases he
    cases a with
    | true =>
      have hcl' : close = [']'] := hcl
      subst hcl'
      rw [if_pos rfl] at hl
      subst hl
      obtain ⟨e1, e2, e3⟩ := elem_ne hv
      rw [Doc.toks, if_pos rfl, List.nil_append, List.cons_append] at hn ⊢
      rw [layer_value e1 e2 e3 head_array (valOpens hv)]
      exact key (by simp at hn ⊢; omega)
    | false =>
      rw [if_neg (by simp)] at hl
      rw [Doc.toks, if_neg (by simp), List.cons_append, List.cons_append, List.append_assoc, List.cons_append] at hn ⊢
      rw [layer_value (LabelOk.ne_close hcl hl.1) (LabelOk.ne_nil hl.1) hl.1.2.2.2.2
        (by rw [head_label hcl hl.1, headLabel_sep hl.2]) (valOpens hv)]
      exact key (by simp at hn ⊢; omega)
  | group label sep arr body rest0 ihb ih =>
    intro a im hok close hcl view base p rest fin ms f s hs he n hn
    obtain ⟨hl, hb0, hr0⟩ := hok
    obtain ⟨n, rfl⟩ : ∃ k, n = k + 1 := ⟨n - 1, by omega⟩
    have key : (body.toks arr ++ unbracket arr :: (rest0.toks a ++ rest)).length < n → Fails env
        (match layer env n (unbracket arr) (subView view .last (p.addChild label .empty)) (im || Target.last.isMac) ms.length
            (fetch .last (p.addChild label .empty) ms) ⟨body.toks arr ++ unbracket arr :: (rest0.toks a ++ rest), fin, ms, f⟩ with
          | .ok (c, st) => layer env n close view im base (put .last (p.addChild label .empty) st.macros c).1
              { st with macros := (put .last (p.addChild label .empty) st.macros c).2 }
          | .err => .err | .ub => .ub | .div => .div) := by
      intro hlen
      rw [fetch_addChild, show (im || Target.last.isMac) = im by simp [Target.isMac]]
      rcases bind_err_iff.1 he with he | ⟨ks, hks, he⟩
      · exact fails_body (ihb hb0 (Closes.unbracket arr) (hs.sub _) he n hlen) fun _ _ _ _ hf hk => layer_failed hk hf
      · rw [(inner hb0 (hs.sub (p.addChild label .empty)) hks (p := .empty) (rest := rest0.toks a ++ rest) (fin := fin) (f := f)).le
          (by dsimp only; omega)]
        rcases bind_err_iff.1 he with he | ⟨ks, -, he⟩
        · exact ih hr0 hcl hs he n (by simp at hlen ⊢; omega)
        · cases he
    cases a with
    | true =>
      have hcl' : close = [']'] := hcl
      subst hcl'
      rw [if_pos rfl] at hl
      subst hl
      rw [Doc.toks, if_pos rfl, List.nil_append, List.cons_append, List.append_assoc, List.cons_append] at hn ⊢
      rw [layer_body (Closes.ne_bracket hcl arr) (by cases arr <;> decide) (by cases arr <;> decide) head_array (opens_bracket arr)]
      exact key (by simp at hn ⊢; omega)
    | false =>
      rw [if_neg (by simp)] at hl
      rw [Doc.toks, if_neg (by simp), List.cons_append, List.cons_append, List.append_assoc, List.cons_append, List.append_assoc,
        List.cons_append] at hn ⊢
      rw [layer_body (LabelOk.ne_close hcl hl.1) (LabelOk.ne_nil hl.1) hl.1.2.2.2.2
        (by rw [head_label hcl hl.1, headLabel_body hl.2]) (opens_bracket arr)]
      exact key (by simp at hn ⊢; omega)
  | extend label sep v arr body rest0 ihb ih =>
    intro a im hok close hcl view base p rest fin ms f s hs he n hn
    obtain ⟨rfl, hl, hsep, hv, hb0, hr0⟩ := hok
    obtain ⟨n, rfl⟩ : ∃ k, n = k + 1 := ⟨n - 1, by omega⟩
    rw [Doc.toks, List.cons_append, List.append_assoc, List.cons_append, List.cons_append, List.append_assoc, List.cons_append] at hn ⊢
    rw [layer_value (LabelOk.ne_close hcl hl) (LabelOk.ne_nil hl) hl.2.2.2.2
      (by rw [head_label hcl hl, headLabel_sep hsep]) (valOpens hv)]
    rcases bind_err_iff.1 he with he | ⟨nd, hnd, he⟩
    · rw [(assign_label hs hv p label).2 he]; exact fails_fail _ _ _
    · rw [(assign_label hs hv p label).1 nd hnd]
      dsimp only
      obtain ⟨n, rfl⟩ : ∃ k, n = k + 1 := ⟨n - 1, by simp at hn; omega⟩
      rw [layer_body (Closes.ne_bracket hcl arr) (by cases arr <;> decide) (by cases arr <;> decide) (head_more hcl) (opens_bracket arr)]
      rw [fetch_addChild, show (im || Target.last.isMac) = im by simp [Target.isMac]]
      rcases bind_err_iff.1 he with he | ⟨ks, hks, he⟩
      · exact fails_body (ihb hb0 (Closes.unbracket arr) (hs.sub _) he n (by simp at hn ⊢; omega)
          (rest := unbracket arr :: (rest0.toks false ++ rest))) fun _ _ _ _ hf hk => layer_failed hk hf
      · rw [(inner hb0 (hs.sub (p.addChild label nd)) hks (p := nd) (rest := rest0.toks false ++ rest) (fin := fin) (f := f)).le
          (by simp at hn ⊢; omega)]
        rcases bind_err_iff.1 he with he | ⟨ks, -, he⟩
        · exact ih hr0 hcl hs he n (by simp at hn ⊢; omega)
        · cases he
  | define name sep v rest0 ih =>
    intro a im hok close hcl view base p rest fin ms f s hs he n hn
    obtain ⟨rfl, rfl, hname, hsep, hv, hr0⟩ := hok
    obtain ⟨n, rfl⟩ : ∃ k, n = k + 1 := ⟨n - 1, by omega⟩
    obtain ⟨e1, e2, e3⟩ := macro_ne hcl hname
    rw [Doc.toks, List.cons_append, List.append_assoc, List.cons_append] at hn ⊢
    rw [layer_value e1 e2 e3 (by rw [head_macro hcl hname, headLabel_sep hsep]) (valOpens hv)]
    dsimp only
    rcases bind_err_iff.1 he with he | ⟨nd, hnd, he⟩
    · rw [(assign_macro hs hv p name).2 he]; exact fails_fail _ _ _
    · rw [(assign_macro hs hv p name).1 nd hnd]
      exact ih hr0 hcl (hs.push name nd (some nd) (by simp)) he n (by simp at hn ⊢; omega)
  | defineGroup name sep arr body rest0 ihb ih =>
    intro a im hok close hcl view base p rest fin ms f s hs he n hn
    obtain ⟨rfl, rfl, hname, hsep, hb0, hr0⟩ := hok
    obtain ⟨n, rfl⟩ : ∃ k, n = k + 1 := ⟨n - 1, by omega⟩
    obtain ⟨e1, e2, e3⟩ := macro_ne hcl hname
    rw [Doc.toks, List.cons_append, List.append_assoc, List.cons_append, List.append_assoc, List.cons_append] at hn ⊢
    rw [layer_body e1 e2 e3 (by rw [head_macro hcl hname, headLabel_body hsep]) (opens_bracket arr)]
    dsimp only
    have hfe : fetch (.mac ms.length) p (ms ++ [(name, .empty)]) = .empty := by simp [fetch]
    rw [hfe, show (false || (Target.mac ms.length).isMac) = true from rfl]
    rcases bind_err_iff.1 he with he | ⟨ks, hks, he⟩
    · exact fails_body (ihb hb0 (Closes.unbracket arr) (hs.body name p) he n (by simp at hn ⊢; omega)
          (rest := unbracket arr :: (rest0.toks false ++ rest))) fun _ _ _ _ hf hk => layer_failed hk hf
    · rw [(inner hb0 (hs.body name p) hks (p := .empty) (rest := rest0.toks false ++ rest) (fin := fin) (f := f)).le
        (by simp at hn ⊢; omega)]
      dsimp only
      rw [put_mac]
      exact ih hr0 hcl (hs.push name (.mk [] ks false) (some (.mk [] ks false)) (by simp)) he n (by simp at hn ⊢; omega)
  | incl g rest0 ih =>
    intro a im hok close hcl view base p rest fin ms f s hs he n hn
    obtain ⟨n, rfl⟩ : ∃ k, n = k + 1 := ⟨n - 1, by omega⟩
    rw [Doc.toks, List.cons_append, List.cons_append, List.cons_append] at hn ⊢
    rw [layer_incl hcl.ne_incl]
    rcases bind_err_iff.1 he with he | ⟨ks, hks, he⟩
    · obtain ⟨h1, h2⟩ := (hinc g).2 he
      constructor
      · intro ht; rw [h1 ht]
      · intro p' st' h
        cases hg : env.inc g with
        | ok r =>
          obtain ⟨ks, bad⟩ := r
          rw [hg] at h
          exact layer_failed h (by simp [h2 ks bad hg])
        | err => rw [hg] at h; cases h
        | ub => rw [hg] at h; cases h
        | div => rw [hg] at h; cases h
    · rw [(hinc g).1 ks hks]
      rcases bind_err_iff.1 he with he | ⟨ks', -, he⟩
      · exact ih hok hcl hs he n (by simp at hn ⊢; omega)
      · cases he

/-! ## Comments that are not closed -/

/-- The text ends inside a comment, and no token is empty. -/
def Open (st : St) : Prop := st.fin = .bad ∧ [] ∉ st.toks

theorem next_open {env : Env} {st st' : St} {t : Str} (h : next env st = .ok (t, st')) (ho : Open st) :
    st'.failed = true ∨ (Open st' ∧ t ≠ []) := by
  obtain ⟨h1, h2⟩ := ho
  unfold next at h
  split at h
  · next t' ts he =>
    cases h
    rw [he] at h2
    exact .inr ⟨⟨h1, fun hm => h2 (List.mem_cons_of_mem _ hm)⟩, fun e => h2 (e ▸ List.mem_cons_self)⟩
  · rw [h1] at h
    dsimp only at h
    split at h
    · cases h
    · cases h; exact .inl rfl

theorem headLabel_open {env : Env} {tg : Target} {p : PropNode} {st : St} {hd : Head} (h : headLabel env tg p st = .ok hd)
    (ho : Open st) : match (generalizing := false) hd with
    | .stop _ st' => st'.failed = true
    | .go _ _ st' _ => st'.failed = true ∨ Open st' := by
  unfold headLabel at h
  cases hn : next env st with
  | ok r =>
    obtain ⟨t, st1⟩ := r
    have h1 := next_open hn ho
    rw [hn] at h
    dsimp only at h
    split at h
    · cases hn2 : next env st1 with
      | ok r =>
        obtain ⟨t2, st2⟩ := r
        rw [hn2] at h
        cases h
        rcases h1 with h1 | ⟨h1, -⟩
        · exact .inl (next_failed hn2 h1)
        · exact (next_open hn2 h1).imp id And.left
      | err => rw [hn2] at h; cases h
      | ub => rw [hn2] at h; cases h
      | div => rw [hn2] at h; cases h
    · split at h
      · unfold stopHead at h
        split at h
        · cases h
        · cases h; rfl
      · cases h; exact h1.imp id And.left
  | err => rw [hn] at h; cases h
  | ub => rw [hn] at h; cases h
  | div => rw [hn] at h; cases h

theorem head_open {env : Env} {im : Bool} {close t : Str} {p : PropNode} {st : St} {hd : Head} (h : head env im close t p st = .ok hd)
    (ho : Open st) : match (generalizing := false) hd with
    | .stop _ st' => st'.failed = true
    | .go _ _ st' _ => st'.failed = true ∨ Open st' := by
  unfold head at h
  split at h
  · split at h
    · split at h
      · split at h
        · cases h
        · exact headLabel_open h ho
      · split at h
        · unfold stopHead at h
          split at h
          · cases h
          · cases h; rfl
        · exact headLabel_open h ho
    · split at h
      · unfold stopHead at h
        split at h
        · cases h
        · cases h; rfl
      · cases h; exact .inr ho
  · cases h; exact .inr ho

/-- A text that ends inside a comment is read with an error, or not to its end. -/
theorem layer_open {env : Env} : ∀ {n : Nat} {close : Str} {view : View} {im : Bool} {base : Nat} {p p' : PropNode} {st st' : St},
    layer env n close view im base p st = .ok (p', st') → Open st → st'.failed = true ∨ (close ≠ [] ∧ Open st') := by
  intro n
  induction n with
  | zero => intro close view im base p p' st st' h; cases h
  | succ n ih =>
    intro close view im base p p' st st' h ho
    have step : ∀ {close : Str} {view : View} {im : Bool} {base : Nat} {p p' : PropNode} {st st' : St},
        layer env n close view im base p st = .ok (p', st') → st.failed = true ∨ Open st →
        st'.failed = true ∨ (close ≠ [] ∧ Open st') := by
      intro close view im base p p' st st' h hs
      rcases hs with hs | hs
      · exact .inl (layer_failed h hs)
      · exact ih h hs
    rw [layer.eq_def] at h
    dsimp only at h
    cases hn : next env st with
    | err => rw [hn] at h; cases h
    | ub => rw [hn] at h; cases h
    | div => rw [hn] at h; cases h
    | ok r =>
      obtain ⟨t, st1⟩ := r
      rcases next_open hn ho with h1 | ⟨h1, hne⟩
      · left
        rw [hn] at h
        dsimp only at h
        split at h
        · cases h; exact h1
        · split at h
          · unfold fail at h
            split at h
            · cases h
            · cases h; rfl
          · split at h
            · split at h
              · next f st2 hn2 =>
                split at h
                · next e st3 hn3 =>
                  split at h
                  · cases h
                  · split at h
                    · refine layer_failed h ?_
                      simp [next_failed hn3 (next_failed hn2 h1)]
                    · cases h
                    · cases h
                    · cases h
                · cases h
                · cases h
                · cases h
              · cases h
              · cases h
              · cases h
            · split at h
              · next p2 st2 hh =>
                cases h
                exact head_failed hh h1
              · next tg p2 st2 v hh =>
                have h2 := head_failed hh h1
                dsimp only at h2
                split at h
                · split at h
                  · next c st3 hl =>
                    have h3 : st3.failed = true := layer_failed hl h2
                    exact layer_failed h h3
                  · cases h
                  · cases h
                  · cases h
                · split at h
                  · exact layer_failed h h2
                  · unfold fail at h
                    split at h
                    · cases h
                    · cases h; rfl
              · cases h
              · cases h
              · cases h
      · rw [hn] at h
        dsimp only at h
        split at h
        · next hc =>
          cases h; exact .inr ⟨hc ▸ hne, h1⟩
        · · split at h
            · split at h
              · next f st2 hn2 =>
                split at h
                · next e st3 hn3 =>
                  split at h
                  · cases h
                  · split at h
                    · refine step h ?_
                      rcases next_open hn2 h1 with h2 | ⟨h2, -⟩
                      · left; simp [next_failed hn3 h2]
                      · rcases next_open hn3 h2 with h3 | ⟨h3, -⟩
                        · left; simp [h3]
                        · right; exact h3
                    · cases h
                    · cases h
                    · cases h
                · cases h
                · cases h
                · cases h
              · cases h
              · cases h
              · cases h
            · split at h
              · next p2 st2 hh =>
                cases h
                exact .inl (head_open hh h1)
              · next tg p2 st2 v hh =>
                have h2 := head_open hh h1
                dsimp only at h2
                split at h
                · split at h
                  · next c st3 hl =>
                    have h3 : st3.failed = true ∨ Open st3 := (step hl h2).imp id And.right
                    exact step h h3
                  · cases h
                  · cases h
                  · cases h
                · split at h
                  · exact step h h2
                  · unfold fail at h
                    split at h
                    · cases h
                    · cases h; exact .inl rfl
              · cases h
              · cases h
              · cases h

end Zml
end Xo
