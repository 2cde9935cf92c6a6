import Verif.Lemmas.XmlCut
import Verif.Lemmas.PropNode

/-!
C97: trees of properties as XML text.

`Xo.Xml.Spec.Item` is what an XML document is composed of, with `render` for how it is written and `adds` for what it means.
-/
namespace Xo.Xml
open Spec

/-- Reading returns for every text: with a tree or with an exception. -/
theorem C97_total (pn : PropNode) (text : Str) : (∃ pn', read pn text = .ok pn') ∨ read pn text = .err := by
  have h := parseTop_fine ((skipBom (cstr text)).length + 1) (skipBom (cstr text)) (Nat.lt_succ_self _)
  unfold read parse
  simp only []
  generalize parseTop _ _ = o at h ⊢
  cases o with
  | ok ns => cases ns <;> exact Or.inl ⟨_, rfl⟩
  | err => exact Or.inr rfl
  | ub => exact h.elim
  | div => exact h.elim

/-- What the first element of a document adds to a node. -/
def addFirst (pn : PropNode) : PropNode.Kids → PropNode
  | [] => pn
  | (k, c) :: _ => pn.addChild k c

theorem skipBom_ascii {s : Str} (h : ∀ c, s.head? = some c → c.toNat < 128) : skipBom s = s := by
  unfold skipBom
  split
  · rename_i hp
    exfalso
    obtain ⟨t, ht⟩ := List.isPrefixOf_iff_prefix.1 hp
    have := h (Char.ofNat 0xEF) (by rw [← ht]; rfl)
    exact absurd this (by decide)
  · rfl

theorem render_head {is : List Item} (hok : Item.AllOk is) (htop : ∀ i ∈ is, i.TopLevel) {s : Str}
    (hs : ∀ c, s.head? = some c → c.toNat < 128) : ∀ c, (Item.renderAll is ++ s).head? = some c → c.toNat < 128 := by
  induction is with
  | nil => rw [renderAll_nil]; exact hs
  | cons i is ih =>
    intro c hc
    rw [Item.AllOk] at hok
    rw [renderAll_cons, List.append_assoc] at hc
    cases hi : i.isText with
    | false =>
      obtain ⟨d, t, hr, -⟩ := render_tag i hi hok.1
      rw [hr] at hc
      cases hc; decide
    | true =>
      cases i with
      | text ps =>
        have ht : ∀ p ∈ ps, p.IsBlank := htop (.text ps) (by simp)
        rw [Item.render] at hc
        cases ps with
        | nil => exact ih hok.2 (fun j hj => htop j (by simp [hj])) c hc
        | cons p ps =>
          have hp := ht p (by simp)
          cases p with
          | chr d =>
            simp only [renderText_cons, Piece.render, List.cons_append, List.nil_append, List.head?_cons, Option.some.injEq] at hc
            subst hc
            rcases hp with rfl | rfl | rfl | rfl <;> decide
          | amp | lt | gt | quot | apos | dec | hex | hexUp => exact hp.elim
      | single | pair | comment | instr | cdata | docType => cases hi

theorem skipBom_render {is : List Item} (hok : Item.AllOk is) (htop : ∀ i ∈ is, i.TopLevel) :
    skipBom (Item.renderAll is) = Item.renderAll is := by
  refine skipBom_ascii ?_
  have := render_head hok htop (s := []) (by simp)
  rwa [List.append_nil] at this

/-- A well-formed document is read as what it means: its first element is added to the node, with its name as key, its text
as value, and its attributes and elements as children, in their order; references are replaced by the characters that
they stand for; comments, instructions, document types and white space between elements mean nothing. -/
theorem C97_read (pn : PropNode) (is : List Item) (hok : Item.AllOk is) (htop : ∀ i ∈ is, i.TopLevel) :
    read pn (Item.renderAll is) = .ok (addFirst pn (Item.addsAll is)) := by
  have h := parseTop_items is hok htop _ (Nat.lt_succ_self _)
  have ha := toPn_domAll is hok
  unfold read parse
  rw [cstr_id (renderAll_nonzero is hok), skipBom_render hok htop]
  simp only []
  rw [h, ← ha]
  have hne : ∀ is : List Item, Item.AllOk is → (∀ i ∈ is, i.TopLevel) → ∀ x ∈ domAll is, x.name.isEmpty = false := by
    intro is
    induction is with
    | nil => intro _ _ x hx; rw [domAll] at hx; cases hx
    | cons i is ih =>
      intro hok htop x hx
      rw [Item.AllOk] at hok
      rw [domAll] at hx
      rcases List.mem_append.1 hx with hx | hx
      · have ht := htop i (by simp)
        have hi := hok.1
        cases i with
        | text ps =>
          have ht : ∀ p ∈ ps, p.IsBlank := ht
          rw [dom, if_pos ht] at hx; cases hx
        | single n as w =>
          rw [dom, Option.toList_some, List.mem_singleton] at hx
          subst hx
          rw [Item.Ok] at hi
          cases n with
          | nil => exact absurd rfl hi.1.start.1
          | cons => rfl
        | pair n as w is w' =>
          rw [dom, Option.toList_some, List.mem_singleton] at hx
          subst hx
          rw [Item.Ok] at hi
          cases n with
          | nil => exact absurd rfl hi.1.start.1
          | cons => rfl
        | cdata s => exact ht.elim
        | comment s | instr s | docType s => simp [dom] at hx
      · exact ih hok.2 (fun j hj => htop j (by simp [hj])) x hx
  have hx := hne is hok htop
  cases hd : domAll is with
  | nil => simp [toPnKids, addFirst]
  | cons x xs =>
    rw [hd] at hx
    have := hx x (by simp)
    simp only [Out.bind_ok, toPnKids, this, addFirst, Bool.false_eq_true, if_false]

/-- A byte order mark before the document makes no difference. -/
theorem C97_read_bom (pn : PropNode) (is : List Item) (hok : Item.AllOk is) (htop : ∀ i ∈ is, i.TopLevel) :
    read pn (Char.ofNat 0xEF :: Char.ofNat 0xBB :: Char.ofNat 0xBF :: Item.renderAll is) = read pn (Item.renderAll is) := by
  have hz := renderAll_nonzero is hok
  have h1 : cstr (Char.ofNat 0xEF :: Char.ofNat 0xBB :: Char.ofNat 0xBF :: Item.renderAll is) =
      Char.ofNat 0xEF :: Char.ofNat 0xBB :: Char.ofNat 0xBF :: Item.renderAll is := by
    apply cstr_id
    intro c hc
    simp only [List.mem_cons] at hc
    rcases hc with rfl | rfl | rfl | hc
    · decide
    · decide
    · decide
    · exact hz c hc
  have h2 : skipBom (Char.ofNat 0xEF :: Char.ofNat 0xBB :: Char.ofNat 0xBF :: Item.renderAll is) = Item.renderAll is := by
    unfold skipBom
    have hp : [Char.ofNat 0xEF, Char.ofNat 0xBB, Char.ofNat 0xBF].isPrefixOf
        (Char.ofNat 0xEF :: Char.ofNat 0xBB :: Char.ofNat 0xBF :: Item.renderAll is) = true :=
      List.isPrefixOf_iff_prefix.2 ⟨Item.renderAll is, rfl⟩
    rw [if_pos hp]
    rfl
  unfold read parse
  rw [h1, cstr_id hz, h2, skipBom_render hok htop]

/-! ### Writing -/

/-- The piece for a character of a value. -/
def pieceOf (c : Char) : Piece :=
  if c = '<' then .lt else if c = '>' then .gt else if c = '\'' then .apos else if c = '"' then .quot
  else if c = '&' then .amp else .chr c

theorem pieceOf_render (c : Char) : (pieceOf c).render = escChar c := by
  unfold pieceOf escChar
  split_ifs <;> rfl

theorem pieceOf_meaning (c : Char) : (pieceOf c).meaning = [c] := by
  unfold pieceOf
  split_ifs <;> simp_all [Piece.meaning]

theorem pieceOf_ok (c : Char) (h : c.toNat ≠ 0) : (pieceOf c).Ok '<' := by
  unfold pieceOf
  split_ifs with h1 h2 h3 h4 h5 <;> first | trivial | exact ⟨h1, h5, h⟩

theorem pieceOf_blank (c : Char) : (pieceOf c).IsBlank ↔ (c = ' ' ∨ c = '\t' ∨ c = '\n' ∨ c = '\r') := by
  unfold pieceOf
  split_ifs with h1 h2 h3 h4 h5 <;> simp_all [Piece.IsBlank]

def pieces (v : Str) : List Piece := v.map pieceOf

theorem pieces_render (v : Str) : renderText (pieces v) = esc v := by
  simp only [renderText, pieces, esc, List.flatMap_map, pieceOf_render]

theorem pieces_meaning (v : Str) : textOf (pieces v) = v := by
  simp only [textOf, pieces, List.flatMap_map, pieceOf_meaning, List.flatMap_singleton']

theorem pieces_blank (v : Str) : (∀ p ∈ pieces v, p.IsBlank) ↔ Blank v := by
  simp only [pieces, List.mem_map, forall_exists_index, and_imp, forall_apply_eq_imp_iff₂, pieceOf_blank, Blank]

theorem pieces_ok {v : Str} (h : Item.NoZero v) : ∀ p ∈ pieces v, p.Ok '<' := by
  intro p hp
  obtain ⟨c, hc, rfl⟩ := List.mem_map.1 hp
  exact pieceOf_ok c (h c hc)

/-- A line break and an indentation. -/
def gap (n : Nat) : Item := .text ((('\n' :: tabs n).map Piece.chr))

theorem gap_render (n : Nat) : (gap n).render = '\n' :: tabs n := by
  rw [gap, Item.render, renderText, List.flatMap_map]
  simp only [Piece.render]
  exact List.flatMap_singleton' _

theorem gap_blank (n : Nat) : ∀ p ∈ (('\n' :: tabs n).map Piece.chr), p.IsBlank := by
  intro p hp
  obtain ⟨c, hc, rfl⟩ := List.mem_map.1 hp
  simp only [tabs, List.mem_cons, List.mem_replicate] at hc
  rcases hc with rfl | ⟨-, rfl⟩ <;> simp [Piece.IsBlank]

theorem gap_ok (n : Nat) : (gap n).Ok := by
  rw [gap, Item.Ok]
  intro p hp
  obtain ⟨c, hc, rfl⟩ := List.mem_map.1 hp
  simp only [tabs, List.mem_cons, List.mem_replicate] at hc
  rcases hc with rfl | ⟨-, rfl⟩ <;> decide

mutual
/-- The element that is written for a node. -/
def src (ind : Nat) (k : Str) : PropNode → Item
  | .mk v ks _ =>
    if v.isEmpty && ks.isEmpty then .single k [] []
    else if ks.isEmpty then .pair k [] [] [.text (pieces v)] []
    else .pair k [] [] (srcKids ind ks) []
/-- The contents of an element with children. -/
def srcKids (ind : Nat) : PropNode.Kids → List Item
  | [] => [gap ind]
  | (k, c) :: cs => gap (ind + 1) :: src (ind + 1) k c :: srcKids ind cs
end

theorem src_isText (ind : Nat) (k : Str) (n : PropNode) : (src ind k n).isText = false := by
  cases n with
  | mk v ks a =>
    rw [src]
    split_ifs <;> rfl

theorem name_cstr {k : Str} (h : Item.NameOk k) : (if k.isEmpty then ['_'] else cstr k) = k := by
  cases k with
  | nil => exact absurd rfl h.start.1
  | cons c k =>
    rw [if_neg (by simp), cstr_id fun d hd => (h.chars d hd).2]

mutual
/-- What is written for a node is the text of its element. -/
theorem print_src (ind : Nat) (k : Str) (n : PropNode) (hk : Item.NameOk k) (hn : Kept n) :
    printNode ind (fromPn k n) = tabs ind ++ (src ind k n).render ++ ['\n'] := by
  cases n with
  | mk v ks a =>
    rw [Kept] at hn
    obtain ⟨h1, h2, h3, h4⟩ := hn
    rw [fromPn, name_cstr hk, cstr_id h3, src, printNode]
    have hke : (fromPnKids ks).isEmpty = ks.isEmpty := by
      cases ks with
      | nil => rw [fromPnKids]; rfl
      | cons p ks => obtain ⟨k, c⟩ := p; rw [fromPnKids]; rfl
    rw [hke]
    cases hks : ks.isEmpty with
    | true =>
      cases hv : v.isEmpty with
      | true => simp [Item.render]
      | false => simp [Item.render, Item.renderAll, pieces_render]
    | false =>
      have ih := print_srcKids ind ks h4
      cases hv : v.isEmpty with
      | true => simp [Item.render, ih, List.append_assoc]
      | false =>
        rcases h1 with rfl | rfl
        · cases hv
        · cases hks
theorem print_srcKids (ind : Nat) (ks : PropNode.Kids) (h : KeptKids ks) :
    '\n' :: (printNodes (ind + 1) (fromPnKids ks) ++ tabs ind) = Item.renderAll (srcKids ind ks) := by
  cases ks with
  | nil =>
    rw [fromPnKids, printNodes, srcKids, renderAll_cons, renderAll_nil, gap_render]
    simp
  | cons p ks =>
    obtain ⟨k, c⟩ := p
    rw [KeptKids] at h
    have h1 := print_src (ind + 1) k c h.1 h.2.1
    have h2 := print_srcKids ind ks h.2.2
    rw [fromPnKids, printNodes, srcKids, renderAll_cons, renderAll_cons, gap_render, h1, ← h2]
    simp
end

mutual
theorem src_ok (ind : Nat) (k : Str) (n : PropNode) (hk : Item.NameOk k) (hn : Kept n) : (src ind k n).Ok := by
  cases n with
  | mk v ks a =>
    rw [Kept] at hn
    obtain ⟨h1, h2, h3, h4⟩ := hn
    have hb : Blank [] := by intro c hc; cases hc
    rw [src]
    split_ifs
    · rw [Item.Ok]; exact ⟨hk, by simp, hb⟩
    · rw [Item.Ok]
      refine ⟨hk, by simp, hb, ?_, trivial, hb⟩
      rw [Item.AllOk, Item.AllOk, Item.Ok]
      exact ⟨pieces_ok h3, trivial⟩
    · rw [Item.Ok]
      have ih := srcKids_ok ind ks h4
      exact ⟨hk, by simp, hb, ih.1, ih.2, hb⟩
theorem srcKids_ok (ind : Nat) (ks : PropNode.Kids) (h : KeptKids ks) :
    Item.AllOk (srcKids ind ks) ∧ Item.Separated (srcKids ind ks) := by
  cases ks with
  | nil =>
    rw [srcKids, Item.AllOk, Item.AllOk]
    exact ⟨⟨gap_ok ind, trivial⟩, trivial⟩
  | cons p ks =>
    obtain ⟨k, c⟩ := p
    rw [KeptKids] at h
    have h1 := src_ok (ind + 1) k c h.1 h.2.1
    have h2 := srcKids_ok ind ks h.2.2
    rw [srcKids, Item.AllOk, Item.AllOk]
    refine ⟨⟨gap_ok _, h1, h2.1⟩, ⟨fun _ => src_isText _ _ _, ?_⟩⟩
    cases hs : srcKids ind ks with
    | nil => trivial
    | cons j js =>
      refine ⟨fun ht => ?_, hs ▸ h2.2⟩
      rw [src_isText] at ht; cases ht
end

theorem firstText_src (ind : Nat) (ks : PropNode.Kids) : Item.firstText (srcKids ind ks) = [] := by
  induction ks with
  | nil => rw [srcKids, gap, Item.firstText, if_pos (gap_blank _), Item.firstText]
  | cons p ks ih =>
    obtain ⟨k, c⟩ := p
    rw [srcKids, gap, Item.firstText, if_pos (gap_blank _)]
    have := src_isText (ind + 1) k c
    generalize src (ind + 1) k c = i at this
    cases i with
    | text => cases this
    | single | pair | comment | instr | cdata | docType => simpa only [Item.firstText] using ih

mutual
theorem src_adds (ind : Nat) (k : Str) (n : PropNode) (hn : Kept n) : (src ind k n).adds = [(k, n.setAccessedRec false)] := by
  cases n with
  | mk v ks a =>
    rw [Kept] at hn
    obtain ⟨h1, h2, h3, h4⟩ := hn
    rw [src, PropNode.setAccessedRec]
    cases hks : ks.isEmpty with
    | true =>
      have hks : ks = [] := by simpa using hks
      subst hks
      cases hv : v.isEmpty with
      | true =>
        have hv : v = [] := by simpa using hv
        subst hv
        simp [Item.adds, Item.attrKids, PropNode.setAccessedRecKids]
      | false =>
        have hv : v ≠ [] := by simpa using hv
        have hnb : ¬ ∀ p ∈ pieces v, p.IsBlank := by
          rw [pieces_blank]
          rcases h2 with h2 | h2
          · exact absurd h2 hv
          · exact h2
        simp only [Bool.and_true, Bool.false_eq_true, if_false, if_true, Item.adds, Item.attrKids, Item.addsAll,
          Item.firstText, if_neg hnb, pieces_meaning, PropNode.setAccessedRecKids, List.map_nil, List.append_nil]
    | false =>
      have ih := srcKids_adds ind ks h4
      cases hv : v.isEmpty with
      | false =>
        rcases h1 with rfl | rfl
        · cases hv
        · cases hks
      | true =>
        have hv : v = [] := by simpa using hv
        subst hv
        simp [Item.adds, Item.attrKids, firstText_src, ih]
theorem srcKids_adds (ind : Nat) (ks : PropNode.Kids) (h : KeptKids ks) :
    Item.addsAll (srcKids ind ks) = PropNode.setAccessedRecKids false ks := by
  cases ks with
  | nil =>
    rw [srcKids, Item.addsAll, Item.addsAll, gap, PropNode.setAccessedRecKids]
    simp [Item.adds]
  | cons p ks =>
    obtain ⟨k, c⟩ := p
    rw [KeptKids] at h
    have h1 := src_adds (ind + 1) k c h.2.1
    have h2 := srcKids_adds ind ks h.2.2
    rw [srcKids, Item.addsAll, Item.addsAll, h1, h2, gap, PropNode.setAccessedRecKids]
    simp [Item.adds]
end

/-- The document that is written. -/
def srcTop : PropNode.Kids → List Item
  | [] => [gap 0]
  | (k, c) :: cs => src 0 k c :: gap 0 :: srcTop cs

theorem write_src (v : Str) (ks : PropNode.Kids) (a : Bool) (h : KeptKids ks) :
    write (.mk v ks a) = Item.renderAll (srcTop ks) := by
  show printNodes 0 (fromPnKids ks) ++ ['\n'] = _
  induction ks with
  | nil => rw [fromPnKids, printNodes, srcTop, renderAll_cons, renderAll_nil, gap_render]; rfl
  | cons p ks ih =>
    obtain ⟨k, c⟩ := p
    rw [KeptKids] at h
    rw [fromPnKids, printNodes, List.append_assoc, ih h.2.2, srcTop, renderAll_cons, renderAll_cons, gap_render,
      print_src 0 k c h.1 h.2.1]
    simp [tabs]

theorem srcTop_ok (ks : PropNode.Kids) (h : KeptKids ks) :
    Item.AllOk (srcTop ks) ∧ (∀ i ∈ srcTop ks, i.TopLevel) ∧ Item.addsAll (srcTop ks) = PropNode.setAccessedRecKids false ks := by
  induction ks with
  | nil =>
    refine ⟨?_, ?_, ?_⟩
    · rw [srcTop, Item.AllOk, Item.AllOk]; exact ⟨gap_ok 0, trivial⟩
    · intro i hi
      rw [srcTop, List.mem_singleton] at hi
      subst hi
      exact gap_blank 0
    · rw [srcTop, Item.addsAll, Item.addsAll, gap, PropNode.setAccessedRecKids]; simp [Item.adds]
  | cons p ks ih =>
    obtain ⟨k, c⟩ := p
    rw [KeptKids] at h
    obtain ⟨i1, i2, i3⟩ := ih h.2.2
    refine ⟨?_, ?_, ?_⟩
    · rw [srcTop, Item.AllOk, Item.AllOk]; exact ⟨src_ok 0 k c h.1 h.2.1, gap_ok 0, i1⟩
    · intro i hi
      rw [srcTop, List.mem_cons, List.mem_cons] at hi
      rcases hi with rfl | rfl | hi
      · cases c with
        | mk v ks a => rw [src]; split_ifs <;> trivial
      · exact gap_blank 0
      · exact i2 i hi
    · rw [srcTop, Item.addsAll, Item.addsAll, src_adds 0 k c h.2.1, i3, gap, PropNode.setAccessedRecKids]; simp [Item.adds]

/-- What is written is read back: the first child of the node that was written. -/
theorem C97_write_read (pn : PropNode) (v : Str) (ks : PropNode.Kids) (a : Bool) (h : KeptKids ks) :
    read pn (write (.mk v ks a)) = .ok (addFirst pn (PropNode.setAccessedRecKids false ks)) := by
  obtain ⟨h1, h2, h3⟩ := srcTop_ok ks h
  rw [write_src v ks a h, C97_read pn _ h1 h2, h3]

/-- A tree with one child and no value of its own comes back from the text that is written for it, if each of its nodes has a
value or children but not both, keys are names, and values are not blank and contain no zero. -/
theorem C97_round_trip_partial (k : Str) (c : PropNode) (a : Bool) (hk : Item.NameOk k) (hc : Kept c) :
    read .empty (write (.mk [] [(k, c)] a)) = .ok ((PropNode.mk [] [(k, c)] a).setAccessedRec false) := by
  rw [C97_write_read .empty [] [(k, c)] a (by rw [KeptKids]; exact ⟨hk, hc, by rw [KeptKids]; trivial⟩)]
  rfl

/-! ### Interrupted writing -/

/-- A document that is cut off within an element is refused, wherever it is cut off. -/
theorem C97_cut_element (pn : PropNode) (is : List Item) (i : Item) (hok : Item.AllOk is) (htop : ∀ j ∈ is, j.TopLevel)
    (hi : i.Ok) (hit : i.isText = false) (p q : Str) (h : i.render = p ++ q) (hp : p ≠ []) (hq : q ≠ []) :
    read pn (Item.renderAll is ++ p) = .err := by
  obtain ⟨c, t, hr, -⟩ := render_tag i hit hi
  obtain ⟨d, p, rfl⟩ : ∃ d p', p = d :: p' := by
    cases p with
    | nil => exact absurd rfl hp
    | cons d p => exact ⟨d, p, rfl⟩
  have hd : d = '<' := by
    rw [hr] at h; simp only [List.cons_append, List.cons.injEq] at h; exact h.1.symm
  subst hd
  have hz : ∀ c ∈ Item.renderAll is ++ '<' :: p, c.toNat ≠ 0 := by
    intro c hc
    rcases List.mem_append.1 hc with hc | hc
    · exact renderAll_nonzero is hok c hc
    · exact render_nonzero i hi c (by rw [h]; exact List.mem_append_left _ hc)
  have hs : ∀ n, ('<' :: p).length < n → parseTop n ('<' :: p) = .err := by
    intro n hn
    obtain ⟨n, rfl⟩ : ∃ m, n = m + 1 := ⟨n - 1, by omega⟩
    rw [parseTop, dropWs_cons (by decide)]
    simp only [if_true]
    rw [cut_node hit hi h hq n (by simp only [List.length_cons] at hn; omega)]
    rfl
  unfold read parse
  rw [cstr_id hz, skipBom_ascii (render_head hok htop (by intro c hc; cases hc; decide))]
  simp only []
  rw [parseTop_prolog is hok htop _ hs _ (Nat.lt_succ_self _)]
  rfl

/-- If the writing of a text stops at any point, then what was written is empty, or refused, or read as the whole text is. -/
theorem C97_cut (k : Str) (c : PropNode) (a : Bool) (hk : Item.NameOk k) (hc : Kept c) (p : Str)
    (hp : p <+: write (.mk [] [(k, c)] a)) :
    p = [] ∨ read .empty p = .err ∨ read .empty p = .ok ((PropNode.mk [] [(k, c)] a).setAccessedRec false) := by
  have hks : KeptKids [(k, c)] := by rw [KeptKids]; exact ⟨hk, hc, by rw [KeptKids]; trivial⟩
  have e : write (.mk [] [(k, c)] a) = (src 0 k c).render ++ ['\n', '\n'] := by
    rw [write_src [] _ a hks, srcTop, srcTop, renderAll_cons, renderAll_cons, renderAll_cons, renderAll_nil, gap_render]
    simp [tabs]
  have hsrc := src_ok 0 k c hk hc
  by_cases h0 : p = []
  · exact Or.inl h0
  obtain ⟨q, hq⟩ := hp
  rw [e] at hq
  rcases List.append_eq_append_iff.1 hq with ⟨u, hu1, hu2⟩ | ⟨u, hu1, hu2⟩
  · by_cases hu : u = []
    · subst hu
      right; right
      have := C97_read .empty [src 0 k c] (by rw [Item.AllOk, Item.AllOk]; exact ⟨hsrc, trivial⟩) (by
        intro i hi
        rw [List.mem_singleton] at hi
        subst hi
        cases c with
        | mk v ks a => rw [src]; split_ifs <;> trivial)
      rw [renderAll_cons, renderAll_nil, List.append_nil, hu1, List.append_nil] at this
      rw [this, Item.addsAll, Item.addsAll, src_adds 0 k c hc]
      rfl
    · right; left
      have := C97_cut_element .empty [] (src 0 k c) (by rw [Item.AllOk]; trivial) (by simp) hsrc (src_isText _ _ _) p u hu1 h0 hu
      rwa [renderAll_nil] at this
  · right; right
    have hb : Blank u := by
      intro d hd
      have : d ∈ ['\n', '\n'] := by rw [hu2]; exact List.mem_append_left _ hd
      simp at this
      exact Or.inr (Or.inr (Or.inl this))
    have hpb : ∀ x ∈ u.map Piece.chr, x.IsBlank := by
      intro x hx
      obtain ⟨d, hd, rfl⟩ := List.mem_map.1 hx
      exact hb d hd
    have := C97_read .empty [src 0 k c, .text (u.map .chr)] (by
      rw [Item.AllOk, Item.AllOk, Item.AllOk, Item.Ok]
      refine ⟨hsrc, ?_, trivial⟩
      intro x hx
      obtain ⟨d, hd, rfl⟩ := List.mem_map.1 hx
      rcases hb d hd with rfl | rfl | rfl | rfl <;> decide) (by
      intro i hi
      simp only [List.mem_cons, List.not_mem_nil, or_false] at hi
      rcases hi with rfl | rfl
      · cases c with
        | mk v ks a => rw [src]; split_ifs <;> trivial
      · exact hpb)
    have er : renderText (u.map Piece.chr) = u := by
      rw [renderText, List.flatMap_map]
      exact List.flatMap_singleton' _
    rw [renderAll_cons, renderAll_cons, renderAll_nil, Item.render, er, List.append_nil, ← hu1] at this
    rw [this, Item.addsAll, Item.addsAll, src_adds 0 k c hc]
    rfl

/-! ### Where texts and trees differ -/

/-- The value of a node with children is not written: the text is the same as without it. -/
theorem C97_value_lost_violated (k v v' : Str) (ks : PropNode.Kids) (a b : Bool) (hks : ks ≠ []) :
    write (.mk [] [(k, .mk v ks a)] b) = write (.mk [] [(k, .mk v' ks a)] b) := by
  have hke : (fromPnKids ks).isEmpty = false := by
    cases ks with
    | nil => exact absurd rfl hks
    | cons p ks => obtain ⟨k, c⟩ := p; rw [fromPnKids]; rfl
  simp only [write, PropNode.kids, fromPnKids, fromPn, printNodes, printNode, hke, Bool.and_false, Bool.false_eq_true, if_false]

/-- The value of the node that is written is not written. -/
theorem C97_root_value_violated (v v' : Str) (ks : PropNode.Kids) (a : Bool) : write (.mk v ks a) = write (.mk v' ks a) := rfl

/-- Of several children of the node that is written, only the first comes back. -/
theorem C97_several_violated (k k' : Str) (c c' : PropNode) (cs : PropNode.Kids) (a : Bool)
    (h : KeptKids ((k, c) :: (k', c') :: cs)) :
    read .empty (write (.mk [] ((k, c) :: (k', c') :: cs) a)) = .ok (.mk [] [(k, c.setAccessedRec false)] false) := by
  rw [C97_write_read .empty [] _ a h]
  rfl

/-- A blank value comes back empty. -/
theorem C97_blank_violated (k v : Str) (a b : Bool) (hk : Item.NameOk k) (hv : Blank v) :
    read .empty (write (.mk [] [(k, .mk v [] a)] b)) = .ok (.mk [] [(k, .leaf [])] false) := by
  by_cases h0 : v = []
  · subst h0
    rw [C97_round_trip_partial k _ b hk (by rw [Kept]; exact ⟨Or.inl rfl, Or.inl rfl, fun c hc => (by cases hc), (by rw [KeptKids]; trivial)⟩)]
    rfl
  have hz : Item.NoZero v := by
    intro c hc
    rcases hv c hc with rfl | rfl | rfl | rfl <;> decide
  have hb : Blank [] := by intro c hc; cases hc
  have e : write (.mk [] [(k, .mk v [] a)] b) =
      Item.renderAll [.pair k [] [] [.text (pieces v)] [], gap 0, gap 0] := by
    have hve : v.isEmpty = false := by simpa using h0
    simp only [write, PropNode.kids, fromPnKids, fromPn, printNodes, printNode, name_cstr hk, cstr_id hz, hve, renderAll_cons,
      renderAll_nil, gap_render, Item.render, pieces_render, tabs]
    simp
  rw [e, C97_read]
  · simp only [Item.addsAll, Item.adds, gap, Item.firstText, if_pos ((pieces_blank v).2 hv), Item.attrKids]
    rfl
  · simp only [Item.AllOk, Item.Ok, gap_ok]
    exact ⟨⟨hk, by simp, hb, ⟨pieces_ok hz, trivial⟩, trivial, hb⟩, trivial, trivial, trivial⟩
  · intro i hi
    simp only [List.mem_cons, List.not_mem_nil, or_false] at hi
    rcases hi with rfl | rfl | rfl
    · trivial
    · exact gap_blank 0
    · exact gap_blank 0

/-- A child without a key is written like a child with the key `_`. -/
theorem C97_empty_key_violated (c : PropNode) (a : Bool) : write (.mk [] [([], c)] a) = write (.mk [] [(['_'], c)] a) := by
  cases c
  simp only [write, PropNode.kids, fromPnKids, fromPn]
  rfl

/-- Character data sections are dropped. -/
theorem C97_cdata_violated (pn : PropNode) (n s : Str) (hn : Item.NameOk n) (hs : (Item.cdata s).Ok) :
    read pn (Item.renderAll [.pair n [] [] [.cdata s] []]) = .ok (pn.addChild n (.leaf [])) := by
  have hb : Blank [] := by intro c hc; cases hc
  rw [C97_read]
  · simp only [Item.addsAll, Item.adds, Item.firstText, Item.attrKids]
    rfl
  · rw [Item.Ok] at hs
    simp only [Item.AllOk, Item.Ok]
    exact ⟨⟨hn, by simp, hb, ⟨hs, trivial⟩, trivial, hb⟩, trivial⟩
  · intro i hi
    rw [List.mem_singleton] at hi
    subst hi; trivial

/-- Text behind a comment (or an element) is dropped if there was text before it. -/
theorem C97_split_text_violated (pn : PropNode) (n s : Str) (ps qs : List Piece) (hn : Item.NameOk n) (hs : (Item.comment s).Ok)
    (hp : ∀ p ∈ ps, p.Ok '<') (hq : ∀ p ∈ qs, p.Ok '<') (hnb : ¬ ∀ p ∈ ps, p.IsBlank) :
    read pn (Item.renderAll [.pair n [] [] [.text ps, .comment s, .text qs] []]) = .ok (pn.addChild n (.leaf (textOf ps))) := by
  have hb : Blank [] := by intro c hc; cases hc
  rw [C97_read]
  · simp only [Item.addsAll, Item.adds, Item.firstText, Item.attrKids, if_neg hnb]
    rfl
  · rw [Item.Ok] at hs
    simp only [Item.AllOk, Item.Ok]
    exact ⟨⟨hn, by simp, hb, ⟨hp, hs, hq, trivial⟩, ⟨fun _ => rfl, fun h => by simp [Item.isText] at h, trivial⟩, hb⟩, trivial⟩
  · intro i hi
    rw [List.mem_singleton] at hi
    subst hi; trivial

/-- The name in a closing tag is not compared with the name of the element: `<n></m>` is read as the element `n`. -/
theorem C97_closing_name_violated (pn : PropNode) (n m : Str) (hn : Item.NameOk n) (hm : Item.NameOk m) :
    read pn ('<' :: n ++ '>' :: '<' :: '/' :: m ++ ['>']) = .ok (pn.addChild n (.leaf [])) := by
  have hb : Blank [] := by intro c hc; cases hc
  have hz : ∀ c ∈ ('<' :: n ++ '>' :: '<' :: '/' :: m ++ ['>'] : Str), c.toNat ≠ 0 := by
    intro c hc
    simp only [List.cons_append, List.mem_cons, List.mem_append, List.not_mem_nil, or_false] at hc
    rcases hc with rfl | (hc | rfl | rfl | rfl | hc) | rfl
    · decide
    · exact (hn.chars c hc).2
    · decide
    · decide
    · decide
    · exact (hm.chars c hc).2
    · decide
  have hne : n.isEmpty = false := by
    cases n with
    | nil => exact absurd rfl hn.start.1
    | cons => rfl
  have e : ('<' :: n ++ '>' :: '<' :: '/' :: m ++ ['>'] : Str) =
      '<' :: (n ++ (([] : List Attr).flatMap Attr.render ++ [] ++ '>' :: (Item.renderAll [] ++ '<' :: '/' :: (m ++ ([] ++ '>' :: []))))) := by
    rw [renderAll_nil]; simp
  unfold read parse
  rw [cstr_id hz, skipBom_ascii (by intro c hc; cases hc; decide)]
  simp only []
  generalize hl : (('<' :: n ++ '>' :: '<' :: '/' :: m ++ ['>'] : Str)).length + 1 = f
  have hf : n.length + m.length + 6 = f := by
    rw [← hl]; simp only [List.length_append, List.length_cons, List.length_nil]; omega
  obtain ⟨f, rfl⟩ : ∃ g, f = g + 3 := ⟨f - 3, by omega⟩
  rw [e, parseTop, dropWs_cons (by decide)]
  simp only [if_true]
  rw [parseNode, nodeStep_elem hn, elemStep_pair hn (by simp) hb _ [] [] []
    ((read_both (f + 1)).2 [] (by rw [Item.AllOk]; trivial) trivial m [] [] [] hm hb (by simp) [] (by
      rw [renderAll_nil]; simp only [List.nil_append, List.length_cons, List.length_append, List.length_nil]; omega))]
  simp only [Out.bind_ok]
  rw [parseTop]
  simp [XNode.name, toPn, toPnKids, PropNode.leaf, cstr]

/-- A key with a space in it is written as it is, and the text is refused. -/
theorem C97_key_space_violated (pn : PropNode) (k w v : Str) (a b : Bool) (hk : Item.NameOk k)
    (hw : ∀ c ∈ w, Attr.NameChar c) (hw0 : w ≠ []) (hv : Item.NoZero v) :
    read pn (write (.mk [] [(k ++ ' ' :: w, .mk v [] a)] b)) = .err := by
  have hkz : ∀ c ∈ k ++ ' ' :: w, c.toNat ≠ 0 := by
    intro c hc
    simp only [List.mem_append, List.mem_cons] at hc
    rcases hc with hc | rfl | hc
    · exact (hk.chars c hc).2
    · decide
    · exact (hw c hc).2
  obtain ⟨c, r, hcr, e⟩ : ∃ c r, (c = '/' ∨ c = '>') ∧
      write (.mk [] [(k ++ ' ' :: w, .mk v [] a)] b) = '<' :: (k ++ ' ' :: (w ++ c :: r)) ∧ ∀ d ∈ r, d.toNat ≠ 0 := by
    have hke : (k ++ ' ' :: w).isEmpty = false := by cases k <;> rfl
    have hesc : ∀ d ∈ esc v, d.toNat ≠ 0 := by
      rw [← pieces_render]; exact renderText_nonzero (pieces_ok hv)
    simp only [write, PropNode.kids, fromPnKids, fromPn, printNodes, printNode, hke, cstr_id hkz, cstr_id hv, tabs,
      Bool.false_eq_true, if_false, List.isEmpty_nil, Bool.and_true, if_true]
    cases hve : v.isEmpty with
    | true =>
      refine ⟨'/', '>' :: '\n' :: '\n' :: [], Or.inl rfl, by simp, ?_⟩
      intro d hd
      simp only [List.mem_cons, List.not_mem_nil, or_false] at hd
      rcases hd with rfl | rfl | rfl <;> decide
    | false =>
      refine ⟨'>', esc v ++ '<' :: '/' :: (k ++ ' ' :: (w ++ '>' :: '\n' :: '\n' :: [])), Or.inr rfl, by simp, ?_⟩
      intro d hd
      have : d ∈ esc v ∨ d ∈ k ++ ' ' :: w ∨ d ∈ ['<', '/', '>', '\n', '\n'] := by
        simp only [List.mem_append, List.mem_cons, List.not_mem_nil, or_false] at hd ⊢
        tauto
      rcases this with h | h | h
      · exact hesc d h
      · exact hkz d h
      · have hall : ∀ d ∈ (['<', '/', '>', '\n', '\n'] : Str), d.toNat ≠ 0 := by decide
        exact hall d h
  obtain ⟨e, hr⟩ := e
  have hz : ∀ d ∈ '<' :: (k ++ ' ' :: (w ++ c :: r)), d.toNat ≠ 0 := by
    intro d hd
    have : d ∈ k ++ ' ' :: w ∨ d = '<' ∨ d = c ∨ d ∈ r := by
      simp only [List.mem_append, List.mem_cons] at hd ⊢
      tauto
    rcases this with h | rfl | rfl | h
    · exact hkz d h
    · decide
    · rcases hcr with rfl | rfl <;> decide
    · exact hr d h
  have hca : isAttrName c = false ∧ isWs c = false ∧ c ≠ '=' := by rcases hcr with rfl | rfl <;> decide
  obtain ⟨d, u, rfl⟩ : ∃ d u, w = d :: u := by
    cases w with
    | nil => exact absurd rfl hw0
    | cons d u => exact ⟨d, u, rfl⟩
  have hda : isAttrName d = true := attrName_of (hw d (by simp))
  obtain ⟨h1, h2⟩ := takeDrop_name (p := isName) (n := k) (fun c hc => name_of (hk.chars c hc)) (r := ' ' :: ((d :: u) ++ c :: r))
    (by intro x hx; cases hx; decide)
  have h3 := (takeDrop_name (p := isAttrName) (n := d :: u) (fun c hc => attrName_of (hw c hc)) (r := c :: r)
    (by intro x hx; cases hx; exact hca.1)).2
  have h4 : parseAttr ((d :: u) ++ c :: r) = .err := by
    unfold parseAttr
    rw [h3, dropWs_cons hca.2.1]
    split
    · rename_i heq
      cases heq
      exact absurd rfl hca.2.2
    · rfl
  have h5 : ∀ cont, elemStep cont (k ++ ' ' :: ((d :: u) ++ c :: r)) = .err := by
    intro cont
    have hke : k.isEmpty = false := by
      cases k with
      | nil => exact absurd rfl hk.start.1
      | cons => rfl
    unfold elemStep
    rw [h1, h2, hke]
    simp only [Bool.false_eq_true, if_false]
    rw [show (' ' :: ((d :: u) ++ c :: r) : Str) = [' '] ++ ((d :: u) ++ c :: r) from rfl, dropWs_blank (by decide)]
    have h6 : List.dropWhile isWs ((d :: u) ++ c :: r) = d :: (u ++ c :: r) := dropWs_cons (attrName_not_ws hda) _
    rw [h6, parseAttrs, if_pos hda]
    rw [List.cons_append] at h4
    rw [h4]
    rfl
  unfold read parse
  rw [e, cstr_id hz, skipBom_ascii (by intro c hc; cases hc; decide)]
  simp only []
  rw [List.length_cons, parseTop, dropWs_cons (by decide)]
  simp only [if_true]
  generalize hl : (k ++ ' ' :: ((d :: u) ++ c :: r)).length + 1 = f
  obtain ⟨f, rfl⟩ : ∃ g, f = g + 1 := ⟨f - 1, by omega⟩
  rw [parseNode, nodeStep_elem hk, h5]
  rfl

/-! ### Examples -/

theorem nameOk_of (n : Str) (h : (n ≠ [] ∧ n.head? ≠ some '!') ∧ ∀ c ∈ n, Item.NameChar c) : Item.NameOk n := ⟨h.2, h.1⟩

theorem noZero_of (n : Str) (h : ∀ c ∈ n, c.toNat ≠ 0) : Item.NoZero n := h

/-- `<?xml version="1.0"?><!-- > --><body name='left &amp; right' mass = "&#50;"> x&lt;&#x41; <pos/></body>` -/
def exampleDoc : List Item :=
  [.instr "xml version=\"1.0\"".toList, .comment " > ".toList,
   .pair "body".toList
    [⟨[' '], "name".toList, [], [], '\'', ("left ".toList.map .chr) ++ [.amp] ++ (" right".toList.map .chr)⟩,
     ⟨[' '], "mass".toList, [' '], [' '], '"', [.dec '2']⟩] []
    [.text [.chr ' ', .chr 'x', .lt, .hex 'A', .chr ' '], .single "pos".toList [] []] []]

example : Item.renderAll exampleDoc =
    "<?xml version=\"1.0\"?><!-- > --><body name='left &amp; right' mass = \"&#50;\"> x&lt;&#x41; <pos/></body>".toList := by
  decide +kernel

theorem exampleDoc_ok : Item.AllOk exampleDoc ∧ ∀ i ∈ exampleDoc, i.TopLevel := by
  constructor
  · simp only [exampleDoc, Item.AllOk, Item.Ok, List.mem_cons, List.not_mem_nil, or_false, forall_eq_or_imp, forall_eq]
    refine ⟨⟨?_, ?_⟩, ⟨?_, ?_⟩, ⟨nameOk_of _ (by decide +kernel), ⟨?_, ?_⟩, by decide, ⟨?_, ⟨nameOk_of _ (by decide +kernel), by simp, by decide⟩, trivial⟩, ?_, by decide⟩, trivial⟩
    · unfold Item.NoZero; decide +kernel
    · decide +kernel
    · unfold Item.NoZero; decide +kernel
    · decide +kernel
    · exact ⟨by decide, by decide +kernel, by decide, by decide, by decide, by decide +kernel⟩
    · exact ⟨by decide, by decide +kernel, by decide, by decide, by decide, by decide +kernel⟩
    · decide +kernel
    · exact ⟨fun _ => rfl, trivial⟩
  · intro i hi
    simp only [exampleDoc, List.mem_cons, List.not_mem_nil, or_false] at hi
    rcases hi with rfl | rfl | rfl <;> trivial

example : read .empty "<?xml version=\"1.0\"?><!-- > --><body name='left &amp; right' mass = \"&#50;\"> x&lt;&#x41; <pos/></body>".toList =
    .ok (.mk [] [("body".toList, .mk " x<A ".toList
      [("name".toList, .leaf "left & right".toList), ("mass".toList, .leaf ['2']), ("pos".toList, .leaf [])] false)] false) := by
  have := C97_read .empty exampleDoc exampleDoc_ok.1 exampleDoc_ok.2
  rw [show Item.renderAll exampleDoc = "<?xml version=\"1.0\"?><!-- > --><body name='left &amp; right' mass = \"&#50;\"> x&lt;&#x41; <pos/></body>".toList by decide +kernel] at this
  rw [this]
  rfl

/-- A tree that a text can hold. -/
def exampleTree : PropNode := .mk [] [("name".toList, .leaf "a < b".toList), ("pos".toList, .mk [] [("x".toList, .leaf "1".toList)] true)] false

theorem exampleTree_kept : Kept exampleTree := by
  rw [exampleTree, PropNode.leaf, PropNode.leaf, Kept, KeptKids, KeptKids, KeptKids, Kept, Kept, KeptKids, KeptKids, KeptKids, Kept, KeptKids]
  refine ⟨Or.inl rfl, Or.inl rfl, noZero_of _ (by decide), nameOk_of _ (by decide +kernel), ⟨Or.inr rfl, Or.inr (by decide +kernel), noZero_of _ (by decide +kernel), trivial⟩,
    nameOk_of _ (by decide +kernel), ⟨Or.inl rfl, Or.inl rfl, noZero_of _ (by decide), nameOk_of _ (by decide +kernel), ⟨Or.inr rfl, Or.inr (by decide +kernel), noZero_of _ (by decide +kernel), trivial⟩, trivial⟩, trivial⟩

example : write (.mk [] [("body".toList, exampleTree)] false) =
    "<body>\n\t<name>a &lt; b</name>\n\t<pos>\n\t\t<x>1</x>\n\t</pos>\n</body>\n\n".toList := by decide +kernel

example : read .empty (write (.mk [] [("body".toList, exampleTree)] false)) =
    .ok ((PropNode.mk [] [("body".toList, exampleTree)] false).setAccessedRec false) :=
  C97_round_trip_partial _ _ _ (nameOk_of _ (by decide +kernel)) exampleTree_kept

/-- The one key of a tree and its value. -/
def only : Out PropNode → Option (Str × Str)
  | .ok (.mk _ [(k, .mk v [] _)] _) => some (k, v)
  | _ => none

/-- A decimal reference may contain the letters of hexadecimal digits, `&#4a;` is the character number 50. -/
theorem C97_decimal_violated : only (read .empty "<a>&#4a;</a>".toList) = some (['a'], ['2']) := by decide +kernel

/-- The reference to a number that is no character is accepted, and stands for bytes that encode no character. -/
theorem C97_surrogate_violated : insertCoded 0xD800 = some [Char.ofNat 0xED, Char.ofNat 0xA0, Char.ofNat 0x80] ∧
    ∀ c : Char, utf8 c ≠ [Char.ofNat 0xED, Char.ofNat 0xA0, Char.ofNat 0x80] := by
  refine ⟨by decide +kernel, ?_⟩
  intro c hc
  have h := insertCoded_utf8 c
  rw [hc] at h
  have hv := c.valid
  have hinj : ∀ a b : Nat, a < 256 → b < 256 → Char.ofNat a = Char.ofNat b → a = b := by
    intro a b ha hb h
    rw [← ofNat_toNat_small a ha, ← ofNat_toNat_small b hb, h]
  unfold insertCoded contByte at h
  have hlt : c.toNat < 0x110000 := by
    by_contra hn
    split_ifs at h <;> omega
  split_ifs at h <;> simp only [Option.some.injEq, List.cons.injEq, and_true, reduceCtorEq, and_false] at h
  obtain ⟨h1, h2, h3⟩ := h
  have h1 := hinj _ _ (by omega) (by omega) h1
  have h2 := hinj _ _ (by omega) (by omega) h2
  have h3 := hinj _ _ (by omega) (by omega) h3
  have : c.toNat = 0xD800 := by omega
  rcases hv with hv | hv
  · have : c.toNat < 0xd800 := hv
    omega
  · have : 0xdfff < c.toNat := hv.1
    omega

/-- A document type with brackets, and a reference with capital letters. -/
example : (Item.docType "n [<!ENTITY a [>]>]".toList).Ok := by
  rw [Item.Ok]
  refine ⟨by unfold Item.NoZero; decide, ?_⟩
  refine .chr (by decide) (by decide) (.chr (by decide) (by decide) (.group (a := "<!ENTITY a [>]>".toList) ?_ .nil))
  repeat refine .chr (by decide) (by decide) ?_
  refine .group (a := ['>']) (.chr (by decide) (by decide) .nil) (.chr (by decide) (by decide) .nil)

example : only (read .empty "<!DOCTYPE n [<!ENTITY a [>]>]><a>&#x4A;&#x4a;</a>".toList) = some (['a'], ['J', 'J']) := by decide +kernel

end Xo.Xml
