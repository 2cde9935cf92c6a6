import Verif.Lemmas.ZmlDoc
import Verif.Spec.ZmlRef

/-! The reader on documents with references (C80). -/
namespace Xo
namespace Zml
open Spec

/-- With enough steps, reading from the first state is reading from the second. -/
def Steps (env : Env) (close : Str) (view : View) (im : Bool) (base : Nat) (p : PropNode) (st : St) (p' : PropNode) (st' : St) : Prop :=
  ∀ n, st.toks.length < n → ∃ m, st'.toks.length < m ∧
    layer env n close view im base p st = layer env m close view im base p' st'

theorem Steps.refl {env : Env} {close : Str} {view : View} {im : Bool} {base : Nat} {p : PropNode} {st : St} :
    Steps env close view im base p st p st := fun n hn => ⟨n, hn, rfl⟩

theorem Steps.trans {env : Env} {close : Str} {view : View} {im : Bool} {base : Nat} {p p' p'' : PropNode} {st st' st'' : St}
    (h1 : Steps env close view im base p st p' st') (h2 : Steps env close view im base p' st' p'' st'') :
    Steps env close view im base p st p'' st'' := by
  intro n hn
  obtain ⟨m, hm, e⟩ := h1 n hn
  obtain ⟨k, hk, e'⟩ := h2 m hm
  exact ⟨k, hk, e.trans e'⟩

theorem Steps.fails {env : Env} {close : Str} {view : View} {im : Bool} {base : Nat} {p p' : PropNode} {st st' : St}
    (h1 : Steps env close view im base p st p' st')
    (h2 : ∀ n, st'.toks.length < n → Fails env (layer env n close view im base p' st')) :
    ∀ n, st.toks.length < n → Fails env (layer env n close view im base p st) := by
  intro n hn
  obtain ⟨m, hm, e⟩ := h1 n hn
  rw [e]
  exact h2 m hm

/-- The body of a group without references. -/
theorem runs_body {env : Env} {inc : Str → Res PropNode.Kids} (hinc : Loads env inc) {body : Doc} {arr im : Bool} (hok : body.Ok arr im)
    {view : View} {p : PropNode} {rest : List Str} {fin : LexEnd} {ms : PropNode.Kids} {f : Bool} {s : Scope}
    {ks : PropNode.Kids} (hs : Sees view im ms s) (he : eval inc s body = .ok ks) :
    Runs env (unbracket arr) view im ms.length p ⟨body.toks arr ++ unbracket arr :: rest, fin, ms, f⟩
      (p.withKids (p.kids ++ ks), ⟨rest, fin, ms, f⟩) := by
  obtain ⟨defs, h⟩ := runs_doc hinc body hok (Closes.unbracket arr) hs he (base := ms.length) (p := p) (rest := unbracket arr :: rest)
    (fin := fin) (f := f)
  have := Runs.close env (unbracket arr) view im ms.length (p.withKids (p.kids ++ ks)) rest fin (ms ++ defs) f
  rw [List.take_left] at this
  exact h _ this

/-- A value after a label. -/
theorem steps_value {env : Env} {close : Str} (hcl : Closes false close) {view : View} {im : Bool} {base : Nat} {p : PropNode}
    {label sep t : Str} {ts : List Str} {fin : LexEnd} {ms : PropNode.Kids} {f : Bool} {n : PropNode} (hl : LabelOk label)
    (hsep : SepOk sep) (ho : opens t = none)
    (ha : assign view .last (p.addChild label .empty) ms t = some (p.addChild label n, ms)) :
    Steps env close view im base p ⟨label :: (sepToks sep ++ t :: ts), fin, ms, f⟩ (p.addChild label n) ⟨ts, fin, ms, f⟩ := by
  intro k hk
  obtain ⟨k, rfl⟩ : ∃ j, k = j + 1 := ⟨k - 1, by omega⟩
  refine ⟨k, by simp at hk ⊢; omega, ?_⟩
  rw [layer_value (LabelOk.ne_close hcl hl) (LabelOk.ne_nil hl) hl.2.2.2.2
    (by rw [head_label hcl hl, headLabel_sep hsep]) ho, ha]

theorem fails_value {env : Env} {close : Str} (hcl : Closes false close) {view : View} {im : Bool} {base : Nat} {p : PropNode}
    {label sep t : Str} {ts : List Str} {fin : LexEnd} {ms : PropNode.Kids} {f : Bool} (hl : LabelOk label)
    (hsep : SepOk sep) (ho : opens t = none)
    (ha : assign view .last (p.addChild label .empty) ms t = none) (k : Nat)
    (hk : (label :: (sepToks sep ++ t :: ts)).length < k) :
    Fails env (layer env k close view im base p ⟨label :: (sepToks sep ++ t :: ts), fin, ms, f⟩) := by
  obtain ⟨k, rfl⟩ : ∃ j, k = j + 1 := ⟨k - 1, by omega⟩
  rw [layer_value (LabelOk.ne_close hcl hl) (LabelOk.ne_nil hl) hl.2.2.2.2
    (by rw [head_label hcl hl, headLabel_sep hsep]) ho, ha]
  exact fails_fail _ _ _

/-- A value after the name of a macro. -/
theorem steps_define {env : Env} {close : Str} (hcl : Closes false close) {view : View} {base : Nat} {p : PropNode}
    {name sep t : Str} {ts : List Str} {fin : LexEnd} {ms : PropNode.Kids} {f : Bool} {n : PropNode} (hname : name.head? = some '$')
    (hsep : SepOk sep) (ho : opens t = none)
    (ha : assign view (.mac ms.length) p (ms ++ [(name, .empty)]) t = some (p, ms ++ [(name, n)])) :
    Steps env close view false base p ⟨name :: (sepToks sep ++ t :: ts), fin, ms, f⟩ p ⟨ts, fin, ms ++ [(name, n)], f⟩ := by
  intro k hk
  obtain ⟨k, rfl⟩ : ∃ j, k = j + 1 := ⟨k - 1, by omega⟩
  refine ⟨k, by simp at hk ⊢; omega, ?_⟩
  obtain ⟨e1, e2, e3⟩ := macro_ne hcl hname
  rw [layer_value e1 e2 e3 (by rw [head_macro hcl hname, headLabel_sep hsep]) ho]
  dsimp only
  rw [ha]

theorem fails_define {env : Env} {close : Str} (hcl : Closes false close) {view : View} {base : Nat} {p : PropNode}
    {name sep t : Str} {ts : List Str} {fin : LexEnd} {ms : PropNode.Kids} {f : Bool} (hname : name.head? = some '$')
    (hsep : SepOk sep) (ho : opens t = none)
    (ha : assign view (.mac ms.length) p (ms ++ [(name, .empty)]) t = none) (k : Nat)
    (hk : (name :: (sepToks sep ++ t :: ts)).length < k) :
    Fails env (layer env k close view false base p ⟨name :: (sepToks sep ++ t :: ts), fin, ms, f⟩) := by
  obtain ⟨k, rfl⟩ : ∃ j, k = j + 1 := ⟨k - 1, by omega⟩
  obtain ⟨e1, e2, e3⟩ := macro_ne hcl hname
  rw [layer_value e1 e2 e3 (by rw [head_macro hcl hname, headLabel_sep hsep]) ho]
  dsimp only
  rw [ha]
  exact fails_fail _ _ _

/-- A group after a label, whose body is read in one call. -/
theorem steps_group {env : Env} {close : Str} (hcl : Closes false close) {view : View} {im : Bool} {base : Nat} {p : PropNode}
    {label sep : Str} {arr : Bool} {body ts : List Str} {fin : LexEnd} {ms : PropNode.Kids} {f : Bool} {c : PropNode} (hl : LabelOk label)
    (hsep : sep = [] ∨ SepOk sep)
    (hb : Runs env (unbracket arr) (subView view .last (p.addChild label .empty)) im ms.length .empty
      ⟨body ++ unbracket arr :: ts, fin, ms, f⟩ (c, ⟨ts, fin, ms, f⟩)) :
    Steps env close view im base p ⟨label :: (sepToks sep ++ bracket arr :: (body ++ unbracket arr :: ts)), fin, ms, f⟩
      (p.addChild label c) ⟨ts, fin, ms, f⟩ := by
  intro k hk
  obtain ⟨k, rfl⟩ : ∃ j, k = j + 1 := ⟨k - 1, by omega⟩
  refine ⟨k, by simp at hk ⊢; omega, ?_⟩
  rw [layer_body (LabelOk.ne_close hcl hl) (LabelOk.ne_nil hl) hl.2.2.2.2
    (by rw [head_label hcl hl, headLabel_body hsep]) (opens_bracket arr)]
  rw [fetch_addChild, show (im || Target.last.isMac) = im by simp [Target.isMac], hb.le (by simp at hk ⊢; omega)]
  simp only [put, setLast_addChild]

/-- Children of the item before. -/
theorem steps_more {env : Env} {close : Str} (hcl : Closes false close) {view : View} {im : Bool} {base : Nat} {p : PropNode}
    {label : Str} {arr : Bool} {body ts : List Str} {fin : LexEnd} {ms : PropNode.Kids} {f : Bool} {n c : PropNode}
    (hb : Runs env (unbracket arr) (subView view .last (p.addChild label n)) im ms.length n
      ⟨body ++ unbracket arr :: ts, fin, ms, f⟩ (c, ⟨ts, fin, ms, f⟩)) :
    Steps env close view im base (p.addChild label n) ⟨bracket arr :: (body ++ unbracket arr :: ts), fin, ms, f⟩
      (p.addChild label c) ⟨ts, fin, ms, f⟩ := by
  intro k hk
  obtain ⟨k, rfl⟩ : ∃ j, k = j + 1 := ⟨k - 1, by omega⟩
  refine ⟨k, by simp at hk ⊢; omega, ?_⟩
  rw [layer_body (Closes.ne_bracket hcl arr) (by cases arr <;> decide) (by cases arr <;> decide) (head_more hcl) (opens_bracket arr)]
  rw [fetch_addChild, show (im || Target.last.isMac) = im by simp [Target.isMac], hb.le (by simp at hk ⊢; omega)]
  simp only [put, setLast_addChild]

theorem evalVal_flag {s : Scope} {v : Val} {n : PropNode} (hn : evalVal s v = .ok n) (b : PropNode.Kids) :
    n.withKids (n.kids ++ b) = .mk n.value (n.kids ++ b) false := by
  cases v with
  | text t =>
    obtain ⟨x, -, hx⟩ := bind_ok_iff.1 hn
    cases hx; rfl
  | copy name =>
    obtain ⟨x, -, hx⟩ := bind_ok_iff.1 hn
    cases hx; rfl

/-- Items without references: what is read, and the macros in scope behind them. -/
theorem steps_doc {env : Env} {inc : Str → Res PropNode.Kids} (hinc : Loads env inc) {close : Str} (hcl : Closes false close) (d : Doc) :
    d.Ok false false →
    ∀ {view : View} {base : Nat} {p : PropNode} {rest : List Str} {fin : LexEnd} {ms : PropNode.Kids} {f : Bool} {s : Scope}
      {ks : PropNode.Kids}, Sees view false ms s → eval inc s d = .ok ks →
    ∃ defs, Sees view false (ms ++ defs) (scopeAfter inc s d) ∧
      Steps env close view false base p ⟨d.toks false ++ rest, fin, ms, f⟩ (p.withKids (p.kids ++ ks)) ⟨rest, fin, ms ++ defs, f⟩ := by
  induction d with
  | nil =>
    intro _ view base p rest fin ms f s ks hs he
    cases he
    refine ⟨[], by rw [List.append_nil]; exact hs, ?_⟩
    rw [withKids_nil, List.append_nil]
    exact .refl
  | leaf label sep v rest0 ih =>
    intro hok view base p rest fin ms f s ks hs he
    obtain ⟨hl, hv, hr0⟩ := hok
    rw [if_neg (by simp)] at hl
    obtain ⟨n, hn, he⟩ := bind_ok_iff.1 he
    obtain ⟨ks', hk, he⟩ := bind_ok_iff.1 he
    cases he
    obtain ⟨defs, hsee, hst⟩ := ih hr0 hs hk (base := base) (p := p.addChild label n) (rest := rest) (fin := fin) (f := f)
    rw [addChild_append] at hst
    refine ⟨defs, hsee, Steps.trans ?_ hst⟩
    rw [Doc.toks, if_neg (by simp), List.cons_append, List.cons_append, List.append_assoc, List.cons_append]
    exact steps_value hcl hl.1 hl.2 (valOpens hv) ((assign_label hs hv p label).1 n hn)
  | group label sep arr body rest0 _ ih =>
    intro hok view base p rest fin ms f s ks hs he
    obtain ⟨hl, hb0, hr0⟩ := hok
    rw [if_neg (by simp)] at hl
    obtain ⟨b, hb, he⟩ := bind_ok_iff.1 he
    obtain ⟨ks', hk, he⟩ := bind_ok_iff.1 he
    cases he
    obtain ⟨defs, hsee, hst⟩ := ih hr0 hs hk (base := base) (p := p.addChild label (.mk [] b false)) (rest := rest) (fin := fin) (f := f)
    rw [addChild_append] at hst
    refine ⟨defs, hsee, Steps.trans ?_ hst⟩
    rw [Doc.toks, if_neg (by simp), List.cons_append, List.cons_append, List.append_assoc, List.cons_append, List.append_assoc,
      List.cons_append]
    exact steps_group hcl hl.1 hl.2 (runs_body hinc hb0 (hs.sub (p.addChild label .empty)) hb (p := .empty))
  | extend label sep v arr body rest0 _ ih =>
    intro hok view base p rest fin ms f s ks hs he
    obtain ⟨-, hl, hsep, hv, hb0, hr0⟩ := hok
    obtain ⟨n, hn, he⟩ := bind_ok_iff.1 he
    obtain ⟨b, hb, he⟩ := bind_ok_iff.1 he
    obtain ⟨ks', hk, he⟩ := bind_ok_iff.1 he
    cases he
    obtain ⟨defs, hsee, hst⟩ := ih hr0 hs hk (base := base) (p := p.addChild label (.mk n.value (n.kids ++ b) false)) (rest := rest)
      (fin := fin) (f := f)
    rw [addChild_append] at hst
    have hin := runs_body hinc hb0 (hs.sub (p.addChild label n)) hb (p := n) (rest := rest0.toks false ++ rest) (fin := fin) (f := f)
    rw [evalVal_flag hn] at hin
    refine ⟨defs, hsee, ?_⟩
    rw [Doc.toks, List.cons_append, List.append_assoc, List.cons_append, List.cons_append, List.append_assoc, List.cons_append]
    exact ((steps_value hcl hl hsep (valOpens hv) ((assign_label hs hv p label).1 n hn)).trans (steps_more hcl hin)).trans hst
  | define name sep v rest0 ih =>
    intro hok view base p rest fin ms f s ks hs he
    obtain ⟨-, -, hname, hsep, hv, hr0⟩ := hok
    obtain ⟨n, hn, he⟩ := bind_ok_iff.1 he
    obtain ⟨defs, hsee, hst⟩ := ih hr0 (hs.push name n (some n) (by simp)) he (base := base) (p := p) (rest := rest) (fin := fin) (f := f)
    refine ⟨(name, n) :: defs, ?_, ?_⟩
    · rw [scopeAfter, hn]
      simpa using hsee
    · rw [List.append_assoc] at hst
      refine Steps.trans ?_ hst
      rw [Doc.toks, List.cons_append, List.append_assoc, List.cons_append]
      exact steps_define hcl hname hsep (valOpens hv) ((assign_macro hs hv p name).1 n hn)
  | defineGroup name sep arr body rest0 _ ih =>
    intro hok view base p rest fin ms f s ks hs he
    obtain ⟨-, -, hname, hsep, hb0, hr0⟩ := hok
    obtain ⟨b, hb, he⟩ := bind_ok_iff.1 he
    obtain ⟨defs, hsee, hst⟩ := ih hr0 (hs.push name (.mk [] b false) (some (.mk [] b false)) (by simp)) he (base := base) (p := p)
      (rest := rest) (fin := fin) (f := f)
    refine ⟨(name, .mk [] b false) :: defs, ?_, ?_⟩
    · rw [scopeAfter, hb]
      simpa using hsee
    · rw [List.append_assoc] at hst
      refine Steps.trans ?_ hst
      have hin := runs_body hinc hb0 (hs.body name p) hb (p := .empty) (rest := rest0.toks false ++ rest) (fin := fin) (f := f)
      have hem : PropNode.empty.withKids (PropNode.empty.kids ++ b) = .mk [] b false := rfl
      rw [hem] at hin
      obtain ⟨e1, e2, e3⟩ := macro_ne hcl hname
      rw [Doc.toks, List.cons_append, List.append_assoc, List.cons_append, List.append_assoc, List.cons_append]
      intro k hk
      obtain ⟨k, rfl⟩ : ∃ j, k = j + 1 := ⟨k - 1, by omega⟩
      refine ⟨k, by simp at hk ⊢; omega, ?_⟩
      rw [layer_body e1 e2 e3 (by rw [head_macro hcl hname, headLabel_body hsep]) (opens_bracket arr)]
      dsimp only
      have hfe : fetch (.mac ms.length) p (ms ++ [(name, .empty)]) = .empty := by simp [fetch]
      rw [hfe, show (false || (Target.mac ms.length).isMac) = true from rfl, hin.le (by simp at hk ⊢; omega)]
      dsimp only
      rw [put_mac]
  | incl g rest0 ih =>
    intro hok view base p rest fin ms f s ks hs he
    obtain ⟨b, hb, he⟩ := bind_ok_iff.1 he
    obtain ⟨ks', hk, he⟩ := bind_ok_iff.1 he
    cases he
    obtain ⟨defs, hsee, hst⟩ := ih hok hs hk (base := base) (p := p.withKids (p.kids ++ b)) (rest := rest) (fin := fin) (f := f)
    rw [kids_append] at hst
    refine ⟨defs, hsee, Steps.trans ?_ hst⟩
    intro k hk
    obtain ⟨k, rfl⟩ : ∃ j, k = j + 1 := ⟨k - 1, by omega⟩
    refine ⟨k, by simp [Doc.toks] at hk ⊢; omega, ?_⟩
    rw [Doc.toks, List.cons_append, List.cons_append, List.cons_append, layer_incl hcl.ne_incl, (hinc g).1 b hb]
    dsimp only
    rw [Bool.or_false]

/-! ## References -/

/-- The value of the item whose value is `v` is not seen from outside, except through nodes without a value. -/
def Hidden (g : Str → PropNode) : Prop := ∀ keys, (∀ v, (g v).lookup keys = (g []).lookup keys) ∨
  ∃ n, (g []).lookup keys = some n ∧ n.value = []

theorem hidden_leaf : Hidden fun v => .mk v [] false := by
  intro keys
  cases keys with
  | nil => exact .inr ⟨_, rfl, rfl⟩
  | cons k ks => exact .inl fun v => rfl

theorem findKid_snoc (k : Str) (acc : PropNode.Kids) (l : Str) (n : PropNode) :
    PropNode.findKid k (acc ++ [(l, n)]) = (PropNode.findKid k acc).or (if l = k then some n else none) := by
  induction acc with
  | nil => simp [PropNode.findKid]
  | cons e acc ih =>
    obtain ⟨a, b⟩ := e
    rw [List.cons_append, PropNode.findKid, PropNode.findKid, ih]
    split <;> simp

theorem hidden_group {g : Str → PropNode} (h : Hidden g) (acc : PropNode.Kids) (l : Str) :
    Hidden fun v => .mk [] (acc ++ [(l, g v)]) false := by
  intro keys
  cases keys with
  | nil => exact .inr ⟨_, rfl, rfl⟩
  | cons k ks =>
    simp only [PropNode.lookup, PropNode.kids, findKid_snoc]
    cases hf : PropNode.findKid k acc with
    | some c => exact .inl fun v => rfl
    | none =>
      by_cases hk : l = k
      · simpa [hk] using h ks
      · exact .inl fun v => by simp [hk]

/-- The groups that are open. -/
inductive Nested : (PropNode.Kids → PropNode) → Prop
  | root : Nested fun ks => .mk [] ks false
  | sub {up : PropNode.Kids → PropNode} (acc : PropNode.Kids) (label : Str) (h : Nested up) :
    Nested fun ks => up (acc ++ [(label, .mk [] ks false)])

theorem Nested.hidden {up : PropNode.Kids → PropNode} (h : Nested up) : ∀ {g : Str → PropNode}, Hidden g → ∀ acc l,
    Hidden fun v => up (acc ++ [(l, g v)]) := by
  induction h with
  | root => intro g hg acc l; exact hidden_group hg acc l
  | sub acc' label _ ih => intro g hg acc l; exact ih (hidden_group hg acc l) acc' label

theorem opens_ref (k : Str) (ks : List Str) : opens (refTok k ks) = none := by
  simp [opens, refTok]

theorem assign_ref {view : View} {up : PropNode.Kids → PropNode} (hup : ∀ ks ms, (view (.mk [] ks false) ms).1 = up ks)
    (hn : Nested up) {k : Str} {ks : List Str} (hk : PathOk k ks) (acc ms : PropNode.Kids) (label : Str) :
    (∀ n, target (up (acc ++ [(label, .empty)])) k ks = .ok n →
      assign view .last ((PropNode.mk [] acc false).addChild label .empty) ms (refTok k ks) =
        some ((PropNode.mk [] acc false).addChild label n, ms)) ∧
    (target (up (acc ++ [(label, .empty)])) k ks = .err →
      assign view .last ((PropNode.mk [] acc false).addChild label .empty) ms (refTok k ks) = none) := by
  have e1 : ∀ c, (PropNode.mk [] acc false).addChild label c = .mk [] (acc ++ [(label, c)]) false := fun c => rfl
  have ha : assign view .last ((PropNode.mk [] acc false).addChild label .empty) ms (refTok k ks) =
      copyFrom (fun v => v.1.lookup (k :: ks)) view .last ((PropNode.mk [] acc false).addChild label .empty) ms := by
    unfold assign refTok
    rw [if_pos (show ('@' :: Spec.pathStr '.' k ks).head? = some '@' from rfl)]
    congr 1
    funext v
    exact PropNode.tryGetQuery_lookup _ _ _ hk.1 hk.2
  rw [ha]
  unfold copyFrom
  have ep : ∀ c, put .last ((PropNode.mk [] acc false).addChild label .empty) ms c = ((PropNode.mk [] acc false).addChild label c, ms) := by
    intro c; simp only [put, setLast_addChild]
  dsimp only
  simp only [ep]
  rw [e1, hup]
  unfold target
  cases hl : (up (acc ++ [(label, PropNode.empty)])).lookup (k :: ks) with
  | none => simp
  | some m =>
    refine ⟨fun n hn' => ?_, fun h => (nomatch h)⟩
    cases hn'
    rw [Option.map_some]
    have : (((view ((PropNode.mk [] acc false).addChild label (.mk m.value [] false)) ms).1).lookup (k :: ks)).getD m = m := by
      rw [e1, hup]
      rcases hn.hidden hidden_leaf acc label (k :: ks) with h | ⟨n', h, hv⟩
      · have := (h m.value).trans hl
        dsimp only at this
        rw [this]; rfl
      · have := h.symm.trans hl
        cases this
        rw [hv, show PropNode.mk [] [] false = .empty from rfl, hl]; rfl
    rw [this]

theorem assign_ref_macro {view : View} {up : PropNode.Kids → PropNode} (hup : ∀ ks ms, (view (.mk [] ks false) ms).1 = up ks)
    {k : Str} {ks : List Str} (hk : PathOk k ks) (acc ms : PropNode.Kids) (name : Str) :
    (∀ n, target (up acc) k ks = .ok n →
      assign view (.mac ms.length) (.mk [] acc false) (ms ++ [(name, .empty)]) (refTok k ks) =
        some (.mk [] acc false, ms ++ [(name, n)])) ∧
    (target (up acc) k ks = .err →
      assign view (.mac ms.length) (.mk [] acc false) (ms ++ [(name, .empty)]) (refTok k ks) = none) := by
  have ha : assign view (.mac ms.length) (.mk [] acc false) (ms ++ [(name, .empty)]) (refTok k ks) =
      copyFrom (fun v => v.1.lookup (k :: ks)) view (.mac ms.length) (.mk [] acc false) (ms ++ [(name, .empty)]) := by
    unfold assign refTok
    rw [if_pos (show ('@' :: Spec.pathStr '.' k ks).head? = some '@' from rfl)]
    congr 1
    funext v
    exact PropNode.tryGetQuery_lookup _ _ _ hk.1 hk.2
  rw [ha]
  unfold copyFrom
  dsimp only
  simp only [put_mac, hup]
  unfold target
  cases hl : (up acc).lookup (k :: ks) with
  | none => simp
  | some m =>
    refine ⟨fun n hn' => ?_, fun h => (nomatch h)⟩
    cases hn'
    simp

/-- Reading the tokens of a document with references. -/
theorem steps_ref {env : Env} {inc : Str → Res PropNode.Kids} (hinc : Loads env inc) (d : RefDoc) : d.Ok →
    ∀ {close : Str}, Closes false close →
    ∀ {view : View} {base : Nat} {acc : PropNode.Kids} {rest : List Str} {fin : LexEnd} {ms : PropNode.Kids} {f : Bool} {s : Scope}
      {up : PropNode.Kids → PropNode}, Sees view false ms s → (∀ ks ms, (view (.mk [] ks false) ms).1 = up ks) → Nested up →
    (∀ ks, evalRef inc up s acc d = .ok ks → ∃ defs,
      Steps env close view false base (.mk [] acc false) ⟨d.toks ++ rest, fin, ms, f⟩ (.mk [] ks false) ⟨rest, fin, ms ++ defs, f⟩) ∧
    (evalRef inc up s acc d = .err → ∀ n, (d.toks ++ rest).length < n →
      Fails env (layer env n close view false base (.mk [] acc false) ⟨d.toks ++ rest, fin, ms, f⟩)) := by
  induction d with
  | nil =>
    intro _ close hcl view base acc rest fin ms f s up hs hup hn
    refine ⟨fun ks he => ?_, fun he => (nomatch he)⟩
    cases he
    exact ⟨[], by rw [List.append_nil]; exact .refl⟩
  | plain d rest0 ih =>
    intro hok close hcl view base acc rest fin ms f s up hs hup hn
    obtain ⟨hd, hr0⟩ := hok
    rw [RefDoc.toks, List.append_assoc]
    constructor
    · intro ks he
      obtain ⟨b, hb, he⟩ := bind_ok_iff.1 he
      obtain ⟨defs, hsee, hst⟩ := steps_doc hinc hcl d hd hs hb (base := base) (p := .mk [] acc false) (rest := rest0.toks ++ rest)
        (fin := fin) (f := f)
      obtain ⟨defs', hst'⟩ := (ih hr0 hcl hsee hup hn (base := base) (acc := acc ++ b) (rest := rest) (fin := fin) (f := f)).1 ks he
      exact ⟨defs ++ defs', hst.trans (by rw [← List.append_assoc]; exact hst')⟩
    · intro he
      rcases bind_err_iff.1 he with he | ⟨b, hb, he⟩
      · exact fails_doc hinc d hd hcl hs he
      · obtain ⟨defs, hsee, hst⟩ := steps_doc hinc hcl d hd hs hb (base := base) (p := .mk [] acc false) (rest := rest0.toks ++ rest)
          (fin := fin) (f := f)
        exact hst.fails ((ih hr0 hcl hsee hup hn).2 he)
  | ref label sep k ks rest0 ih =>
    intro hok close hcl view base acc rest fin ms f s up hs hup hn
    obtain ⟨hl, hsep, hp, hr0⟩ := hok
    have ha := assign_ref hup hn hp acc ms label
    rw [RefDoc.toks, List.cons_append, List.append_assoc, List.cons_append]
    constructor
    · intro kk he
      obtain ⟨n, hn1, he⟩ := bind_ok_iff.1 he
      obtain ⟨defs, hst⟩ := (ih hr0 hcl hs hup hn (base := base) (acc := acc ++ [(label, n)]) (rest := rest) (fin := fin) (f := f)).1 kk he
      exact ⟨defs, (steps_value hcl hl hsep (opens_ref k ks) (ha.1 n hn1)).trans hst⟩
    · intro he
      rcases bind_err_iff.1 he with he | ⟨n, hn1, he⟩
      · exact fails_value hcl hl hsep (opens_ref k ks) (ha.2 he)
      · exact (steps_value hcl hl hsep (opens_ref k ks) (ha.1 n hn1)).fails ((ih hr0 hcl hs hup hn).2 he)
  | refExtend label sep k ks arr body rest0 ih =>
    intro hok close hcl view base acc rest fin ms f s up hs hup hn
    obtain ⟨hl, hsep, hp, hb0, hr0⟩ := hok
    have ha := assign_ref hup hn hp acc ms label
    have hflag : ∀ n, target (up (acc ++ [(label, PropNode.empty)])) k ks = .ok n → ∀ b, n.withKids (n.kids ++ b) =
        .mk n.value (n.kids ++ b) false := by
      intro n h b
      unfold target at h
      split at h
      · cases h; rfl
      · cases h
    have more : ∀ n, target (up (acc ++ [(label, PropNode.empty)])) k ks = .ok n → ∀ b, eval inc s body = .ok b →
        Steps env close view false base (.mk [] acc false)
          ⟨label :: (sepToks sep ++ refTok k ks :: bracket arr :: (body.toks arr ++ unbracket arr :: (rest0.toks ++ rest))), fin, ms, f⟩
          (.mk [] (acc ++ [(label, .mk n.value (n.kids ++ b) false)]) false) ⟨rest0.toks ++ rest, fin, ms, f⟩ := by
      intro n hn1 b hb
      refine (steps_value hcl hl hsep (opens_ref k ks) (ha.1 n hn1)).trans ?_
      have := runs_body hinc hb0 (hs.sub ((PropNode.mk [] acc false).addChild label n)) hb (p := n) (rest := rest0.toks ++ rest)
        (fin := fin) (f := f)
      rw [hflag n hn1] at this
      exact steps_more hcl this
    rw [RefDoc.toks, List.cons_append, List.append_assoc, List.cons_append, List.cons_append, List.append_assoc, List.cons_append]
    constructor
    · intro kk he
      obtain ⟨n, hn1, he⟩ := bind_ok_iff.1 he
      obtain ⟨b, hb, he⟩ := bind_ok_iff.1 he
      obtain ⟨defs, hst⟩ := (ih hr0 hcl hs hup hn (base := base) (acc := acc ++ [(label, .mk n.value (n.kids ++ b) false)])
        (rest := rest) (fin := fin) (f := f)).1 kk he
      exact ⟨defs, (more n hn1 b hb).trans hst⟩
    · intro he
      rcases bind_err_iff.1 he with he | ⟨n, hn1, he⟩
      · exact fails_value hcl hl hsep (opens_ref k ks) (ha.2 he)
      · rcases bind_err_iff.1 he with he | ⟨b, hb, he⟩
        · refine (steps_value hcl hl hsep (opens_ref k ks) (ha.1 n hn1)).fails ?_
          intro j hj
          obtain ⟨j, rfl⟩ : ∃ i, j = i + 1 := ⟨j - 1, by omega⟩
          rw [layer_body (Closes.ne_bracket hcl arr) (by cases arr <;> decide) (by cases arr <;> decide) (head_more hcl) (opens_bracket arr)]
          rw [fetch_addChild, show (false || Target.last.isMac) = false by simp [Target.isMac]]
          exact fails_body (fails_doc hinc body hb0 (Closes.unbracket arr) (hs.sub _) he j (by simp at hj ⊢; omega))
            (fun p st p' st' hf h => layer_failed h hf)
        · exact (more n hn1 b hb).fails ((ih hr0 hcl hs hup hn).2 he)
  | defineRef name sep k ks rest0 ih =>
    intro hok close hcl view base acc rest fin ms f s up hs hup hn
    obtain ⟨hname, hsep, hp, hr0⟩ := hok
    have ha := assign_ref_macro hup hp acc ms name
    rw [RefDoc.toks, List.cons_append, List.append_assoc, List.cons_append]
    constructor
    · intro kk he
      obtain ⟨n, hn1, he⟩ := bind_ok_iff.1 he
      obtain ⟨defs, hst⟩ := (ih hr0 hcl (hs.push name n (some n) (by simp)) hup hn (base := base) (acc := acc) (rest := rest) (fin := fin)
        (f := f)).1 kk he
      rw [List.append_assoc] at hst
      exact ⟨_, (steps_define hcl hname hsep (opens_ref k ks) (ha.1 n hn1)).trans hst⟩
    · intro he
      rcases bind_err_iff.1 he with he | ⟨n, hn1, he⟩
      · exact fails_define hcl hname hsep (opens_ref k ks) (ha.2 he)
      · exact (steps_define hcl hname hsep (opens_ref k ks) (ha.1 n hn1)).fails
          ((ih hr0 hcl (hs.push name n (some n) (by simp)) hup hn).2 he)
  | group label sep body rest0 ihb ih =>
    intro hok close hcl view base acc rest fin ms f s up hs hup hn
    obtain ⟨hl, hsep, hb0, hr0⟩ := hok
    have hup' : ∀ ks ms, (subView view .last ((PropNode.mk [] acc false).addChild label .empty) (.mk [] ks false) ms).1 =
        up (acc ++ [(label, .mk [] ks false)]) := by
      intro ks ms
      unfold subView
      simp only [put, setLast_addChild]
      exact hup _ _
    have hin := ihb hb0 (close := unbracket false) (Closes.unbracket false) (hs.sub ((PropNode.mk [] acc false).addChild label .empty)) hup'
      (hn.sub acc label) (base := ms.length) (acc := []) (rest := unbracket false :: (rest0.toks ++ rest)) (fin := fin) (f := f)
    have one : ∀ b, evalRef inc (fun ks => up (acc ++ [(label, .mk [] ks false)])) s [] body = .ok b →
        Steps env close view false base (.mk [] acc false)
          ⟨label :: (sepToks sep ++ bracket false :: (body.toks ++ unbracket false :: (rest0.toks ++ rest))), fin, ms, f⟩
          (.mk [] (acc ++ [(label, .mk [] b false)]) false) ⟨rest0.toks ++ rest, fin, ms, f⟩ := by
      intro b hb
      obtain ⟨defs, hst⟩ := hin.1 b hb
      refine steps_group hcl hl hsep ?_
      obtain ⟨m, hm, e⟩ := hst (_ + 1) (Nat.lt_succ_self _)
      unfold Runs
      have hc := (Runs.close env (unbracket false) (subView view .last ((PropNode.mk [] acc false).addChild label .empty)) false ms.length
        (.mk [] b false) (rest0.toks ++ rest) fin (ms ++ defs) f).le (n := m) (by simp at hm ⊢; omega)
      rw [List.take_left] at hc
      exact e.trans hc
    rw [RefDoc.toks, List.cons_append, List.append_assoc, List.cons_append, List.append_assoc, List.cons_append]
    constructor
    · intro kk he
      obtain ⟨b, hb, he⟩ := bind_ok_iff.1 he
      obtain ⟨defs, hst⟩ := (ih hr0 hcl hs hup hn (base := base) (acc := acc ++ [(label, .mk [] b false)])
        (rest := rest) (fin := fin) (f := f)).1 kk he
      exact ⟨defs, (one b hb).trans hst⟩
    · intro he
      rcases bind_err_iff.1 he with he | ⟨b, hb, he⟩
      · intro j hj
        obtain ⟨j, rfl⟩ : ∃ i, j = i + 1 := ⟨j - 1, by omega⟩
        rw [layer_body (LabelOk.ne_close hcl hl) (LabelOk.ne_nil hl) hl.2.2.2.2
          (by rw [head_label hcl hl, headLabel_body hsep]) (opens_bracket false)]
        rw [fetch_addChild, show (false || Target.last.isMac) = false by simp [Target.isMac]]
        exact fails_body (hin.2 he j (by simp at hj ⊢; omega)) (fun p st p' st' hf h => layer_failed h hf)
      · exact (one b hb).fails ((ih hr0 hcl hs hup hn).2 he)

end Zml
end Xo
