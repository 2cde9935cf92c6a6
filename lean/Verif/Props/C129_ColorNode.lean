import Verif.Model.ColorNode
import Verif.Props.C124_ByteRounding
import Verif.Props.C25_Split
import Verif.Props.C79_TextHelpers

/-! C129. Reading a colour from a property node.

A colour can be given as hexadecimal number, as `rgb(…)` or `hsv(…)`, or by named or listed components. It is read as
given; what is not a colour is refused and leaves the variable as it was. -/

namespace Xo.ColNode
open Num (Fl Fmt binary32)
open Ieee

namespace Spec

/-- Plain text. -/
def Ascii (s : Str) : Prop := ∀ c ∈ s, c.toNat < 128

/-- A hexadecimal digit, as capital or small letter. -/
def hexChar (capital : Bool) (d : Fin 16) : Char :=
  if capital then "0123456789ABCDEF".toList.getD d '0' else "0123456789abcdef".toList.getD d '0'

/-- The text of digits, each with its own choice of letters. -/
def hexText (l : List (Bool × Fin 16)) : Str := l.map fun p => hexChar p.1 p.2

/-- The number that digits stand for. -/
def hexNum (l : List (Bool × Fin 16)) : Nat := l.foldl (fun a p => 16 * a + p.2) 0

/-- Separators between the numbers: at least one of comma, semicolon, blank and parentheses. -/
def Gap (s : Str) : Prop := s ≠ [] ∧ ∀ c ∈ s, c ∈ [',', ';', ' ', '(', ')']

/-- A number as it is read: without separators and capital letters. -/
def Word (s : Str) : Prop := s ≠ [] ∧ ∀ c ∈ s, c.toNat < 128 ∧ ¬ (65 ≤ c.toNat ∧ c.toNat ≤ 90) ∧ c ∉ [',', ';', ' ', '(', ')']

end Spec
open _root_.Xo.ColNode.Spec

/-! Small letters. -/

theorem lower_plain {s : Str} (h : Ascii s) : Text.toLower s = .ok (s.map Num.lower) := by
  unfold Text.toLower
  induction s with
  | nil => rfl
  | cons c t ih =>
    have hc := h c (by simp)
    have e : Text.mapCase 65 90 false c = .ok (Num.lower c) := by
      unfold Text.mapCase Num.lower
      rw [if_neg (by omega)]
      split <;> rfl
    show (do let d ← Text.mapCase 65 90 false c; let ds ← Text.mapChars (Text.mapCase 65 90 false) t; pure (d :: ds)) = _
    rw [e, ih fun d hd => h d (by simp [hd])]
    rfl

theorem hexChar_facts : ∀ (u : Bool) (d : Fin 16), Num.lower (hexChar u d) = hexChar false d ∧ (hexChar u d).toNat < 128 ∧
    Num.isHexC (hexChar false d) = true ∧ Num.digVal (hexChar false d) = d.val ∧ isSpaceC (hexChar false d) = false ∧
    hexChar false d ≠ '-' ∧ hexChar false d ≠ '+' ∧ hexChar false d ≠ 'r' ∧ hexChar false d ≠ 'h' ∧ hexChar false d ≠ 'x' ∧
    Num.lower (hexChar false d) ≠ 'x' ∧ hexChar false d ≠ Char.ofNat 0 := by decide +kernel

theorem hexText_lower (l : List (Bool × Fin 16)) : (hexText l).map Num.lower = l.map fun p => hexChar false p.2 := by
  unfold hexText
  rw [List.map_map]
  exact List.map_congr_left fun p _ => (hexChar_facts p.1 p.2).1

theorem begins_head {c : Char} {t p : Str} {d : Char} (h : c ≠ d) : strBeginsWith (c :: t) (d :: p) = false := by
  unfold strBeginsWith
  simp [h]

theorem takeWhile_all {p : Char → Bool} : ∀ {t : Str}, (∀ c ∈ t, p c = true) → t.takeWhile p = t
  | [], _ => rfl
  | c :: t, h => by rw [List.takeWhile_cons, if_pos (h c (by simp)), takeWhile_all fun d hd => h d (by simp [hd])]

theorem cstr_id {t : Str} (h : ∀ c ∈ t, c ≠ Char.ofNat 0) : cstr t = t := takeWhile_all (by simpa using h)

theorem digs (l : List (Bool × Fin 16)) : Num.digsVal 16 (l.map fun p => hexChar false p.2) = hexNum l := by
  unfold Num.digsVal hexNum
  rw [List.foldl_map]
  congr 1
  funext a p
  rw [(hexChar_facts false p.2).2.2.2.1]
  omega

theorem hexNum_lt (l : List (Bool × Fin 16)) : hexNum l < 16 ^ l.length := by
  have : ∀ (l : List (Bool × Fin 16)) (a : Nat), l.foldl (fun a (p : Bool × Fin 16) => 16 * a + p.2.val) a < (a + 1) * 16 ^ l.length := by
    intro l
    induction l with
    | nil => intro a; simp
    | cons p t ih =>
      intro a
      rw [List.foldl_cons]
      refine (ih _).trans_le ?_
      rw [List.length_cons, pow_succ, Nat.mul_comm (16 ^ t.length) 16, ← Nat.mul_assoc]
      exact Nat.mul_le_mul_right _ (by have := p.2.isLt; omega)
  simpa [hexNum] using this l 0

theorem hexDigits_plain (l : List (Bool × Fin 16)) : hexDigits (l.map fun p => hexChar false p.2) = l.map fun p => hexChar false p.2 := by
  have all : ∀ c ∈ l.map (fun p => hexChar false p.2), Num.isHexC c = true := by
    intro c hc
    obtain ⟨p, -, rfl⟩ := List.mem_map.1 hc
    exact (hexChar_facts false p.2).2.2.1
  have nx : ∀ c ∈ l.map (fun p => hexChar false p.2), Num.lower c ≠ 'x' := by
    intro c hc
    obtain ⟨p, -, rfl⟩ := List.mem_map.1 hc
    exact (hexChar_facts false p.2).2.2.2.2.2.2.2.2.2.2.1
  generalize l.map (fun p => hexChar false p.2) = s at all nx
  unfold hexDigits
  split
  · next x d t =>
    rw [if_neg (by rintro ⟨h, -⟩; exact nx x (by simp) h)]
    exact takeWhile_all all
  · exact takeWhile_all all

theorem hexDigits_0x {l : List (Bool × Fin 16)} (h : l ≠ []) : hexDigits ('0' :: 'x' :: l.map fun p => hexChar false p.2) = l.map fun p => hexChar false p.2 := by
  have all : ∀ c ∈ l.map (fun p => hexChar false p.2), Num.isHexC c = true := by
    intro c hc
    obtain ⟨p, -, rfl⟩ := List.mem_map.1 hc
    exact (hexChar_facts false p.2).2.2.1
  obtain ⟨p, t, rfl⟩ := List.exists_cons_of_ne_nil h
  simp only [List.map_cons, hexDigits] at all ⊢
  rw [if_pos ⟨by decide, all _ (by simp)⟩]
  exact takeWhile_all all

theorem stoul_hex (l : List (Bool × Fin 16)) (h : l ≠ []) (hl : l.length ≤ 16) (pre : Str) (hp : pre = [] ∨ pre = ['0', 'x']) :
    stoul16 (pre ++ l.map fun p => hexChar false p.2) = some (hexNum l) := by
  have nz : ∀ c ∈ l.map (fun p => hexChar false p.2), c ≠ Char.ofNat 0 := by
    intro c hc
    obtain ⟨p, -, rfl⟩ := List.mem_map.1 hc
    exact (hexChar_facts false p.2).2.2.2.2.2.2.2.2.2.2.2
  have hc : cstr (pre ++ l.map fun p => hexChar false p.2) = pre ++ l.map fun p => hexChar false p.2 := by
    refine cstr_id ?_
    intro c hc
    rcases List.mem_append.1 hc with hc | hc
    · rcases hp with rfl | rfl
      · simp at hc
      · simp at hc; rcases hc with rfl | rfl <;> decide
    · exact nz c hc
  have hlt : hexNum l < 2 ^ 64 := (hexNum_lt l).trans_le (by
    calc 16 ^ l.length ≤ 16 ^ 16 := Nat.pow_le_pow_right (by norm_num) hl
      _ = 2 ^ 64 := by norm_num)
  have hs : (pre ++ l.map fun p => hexChar false p.2).dropWhile isSpaceC = pre ++ l.map fun p => hexChar false p.2 := by
    rcases hp with rfl | rfl
    · obtain ⟨p, t, rfl⟩ := List.exists_cons_of_ne_nil h
      simp [(hexChar_facts false p.2).2.2.2.2.1]
    · rfl
  have hsgn : Num.splitSign (pre ++ l.map fun p => hexChar false p.2) = (false, pre ++ l.map fun p => hexChar false p.2) := by
    rcases hp with rfl | rfl
    · obtain ⟨p, t, rfl⟩ := List.exists_cons_of_ne_nil h
      have hf := hexChar_facts false p.2
      simp only [List.nil_append, List.map_cons]
      unfold Num.splitSign
      split
      · next e => injection e with e1 e2; exact absurd e1 hf.2.2.2.2.2.1
      · next e => injection e with e1 e2; exact absurd e1 hf.2.2.2.2.2.2.1
      · rfl
    · rfl
  have hd : hexDigits (pre ++ l.map fun p => hexChar false p.2) = l.map fun p => hexChar false p.2 := by
    rcases hp with rfl | rfl
    · exact hexDigits_plain l
    · exact hexDigits_0x h
  unfold stoul16
  rw [hc, hs, hsgn]
  simp only [hd]
  rw [if_neg (by simpa using h), digs, if_neg (by omega)]
  rfl

/-- The node with a text only. -/
theorem fromNode_text {s : Str} (h : Ascii s) (h0 : s ≠ []) (c : Rgba) (n : PropNode) (hn : n.value = s) :
    fromNode n c = .ok (match ofText (s.map Num.lower) with | some d => (true, d) | none => (false, c)) := by
  have hv : n.hasValue = true := by simp [PropNode.hasValue, hn, h0]
  unfold fromNode
  rw [if_pos hv, hn, lower_plain h]
  rfl

/-- Hexadecimal numbers, with capital or small letters, with and without `0x` in front: eight digits are red, green, blue and
alpha, any other number of digits is red, green and blue. -/
theorem C129_hex {l : List (Bool × Fin 16)} (h : l ≠ []) (hl : l.length ≤ 16) {pre : Str} (hp : pre = [] ∨ pre = "0x".toList ∨ pre = "0X".toList)
    (n : PropNode) (hn : n.value = pre ++ hexText l) (c : Rgba) :
    fromNode n c = .ok (true, if l.length = 8 then fromHexRgba binary32 (hexNum l) else fromHexRgb binary32 (hexNum l % 2 ^ 32)) := by
  have hasc : Ascii (pre ++ hexText l) := by
    intro c hc
    rcases List.mem_append.1 hc with hc | hc
    · rcases hp with rfl | rfl | rfl
      · simp at hc
      · exact (show ∀ c ∈ "0x".toList, c.toNat < 128 by decide) c hc
      · exact (show ∀ c ∈ "0X".toList, c.toNat < 128 by decide) c hc
    · obtain ⟨p, -, rfl⟩ := List.mem_map.1 hc
      exact (hexChar_facts p.1 p.2).2.1
  have hne : pre ++ hexText l ≠ [] := by simp [hexText, h]
  rw [fromNode_text hasc hne c n hn, List.map_append, hexText_lower]
  obtain ⟨pre', hpre, hp', hlen⟩ : ∃ pre', pre.map Num.lower = pre' ∧ (pre' = [] ∨ pre' = ['0', 'x']) ∧ True := by
    rcases hp with rfl | rfl | rfl
    · exact ⟨_, rfl, .inl rfl, trivial⟩
    · exact ⟨_, rfl, .inr (by decide), trivial⟩
    · exact ⟨_, rfl, .inr (by decide), trivial⟩
  rw [hpre]
  have hst := stoul_hex l h hl pre' hp'
  have first : ∃ a t, pre' ++ l.map (fun p => hexChar false p.2) = a :: t ∧ a ≠ 'r' ∧ a ≠ 'h' := by
    rcases hp' with rfl | rfl
    · obtain ⟨p, t, rfl⟩ := List.exists_cons_of_ne_nil h
      have hf := hexChar_facts false p.2
      exact ⟨_, _, rfl, hf.2.2.2.2.2.2.2.1, hf.2.2.2.2.2.2.2.2.1⟩
    · exact ⟨_, _, rfl, by decide, by decide⟩
  obtain ⟨a, t, e, h1, h2⟩ := first
  have b1 : strBeginsWith (pre' ++ l.map fun p => hexChar false p.2) "rgb".toList = false := by rw [e]; exact begins_head h1
  have b2 : strBeginsWith (pre' ++ l.map fun p => hexChar false p.2) "hsv".toList = false := by rw [e]; exact begins_head h2
  have hnum : (if strBeginsWith (pre' ++ l.map fun p => hexChar false p.2) "0x".toList = true then (pre' ++ l.map fun p => hexChar false p.2).length - 2
      else (pre' ++ l.map fun p => hexChar false p.2).length) = l.length := by
    rcases hp' with rfl | rfl
    · rw [if_neg]
      · simp
      · unfold strBeginsWith
        intro hh
        rcases l with _ | ⟨p, _ | ⟨q, t⟩⟩
        · exact h rfl
        · simp at hh
        · have hf := hexChar_facts false q.2
          simp at hh
          exact hf.2.2.2.2.2.2.2.2.2.1 hh.2
    · rw [if_pos (by simp [strBeginsWith])]
      simp
  have ho : ofText (pre' ++ l.map fun p => hexChar false p.2) = some (if l.length = 8 then fromHexRgba binary32 (hexNum l) else fromHexRgb binary32 (hexNum l % 2 ^ 32)) := by
    unfold ofText
    simp only [b1, b2, Bool.or_self, Bool.false_eq_true, if_false, hst, hnum]
    split
    · next h8 =>
      have : hexNum l < 2 ^ 32 := by have := hexNum_lt l; rw [h8] at this; exact this.trans_le (by norm_num)
      rw [Nat.mod_eq_of_lt this]
    · rfl
  rw [ho]

/-- Reading six digits, or eight, and asking for the number gives the number of the digits. -/
theorem C129_hex_back {l : List (Bool × Fin 16)} (n : PropNode) (hv : n.value = hexText l) (c : Rgba) :
    (l.length = 6 → ∃ d, fromNode n c = .ok (true, d) ∧ hexRgb binary32 d = .ok (hexNum l)) ∧
    (l.length = 8 → ∃ d, fromNode n c = .ok (true, d) ∧ hexRgba binary32 d = .ok (hexNum l)) := by
  refine ⟨fun hl => ?_, fun hl => ?_⟩
  · have h := C129_hex (l := l) (by rintro rfl; simp at hl) (by omega) (.inl rfl) n (by simpa using hv) c
    rw [if_neg (by omega)] at h
    refine ⟨_, h, ?_⟩
    have hlt : hexNum l < 2 ^ 24 := by have := hexNum_lt l; rw [hl] at this; exact this.trans_le (by norm_num)
    rw [Nat.mod_eq_of_lt (by omega)]
    exact (C124_hex (hexNum l)).1 hlt
  · have h := C129_hex (l := l) (by rintro rfl; simp at hl) (by omega) (.inl rfl) n (by simpa using hv) c
    rw [if_pos hl] at h
    refine ⟨_, h, ?_⟩
    have hlt : hexNum l < 2 ^ 32 := by have := hexNum_lt l; rw [hl] at this; exact this.trans_le (by norm_num)
    exact (C124_hex (hexNum l)).2 hlt

/-! Numbers in parentheses. -/

theorem gap_lower {s : Str} (h : Gap s) : s.map Num.lower = s ∧ Ascii s ∧ ∀ c ∈ s, c ∈ seps := by
  have one : ∀ c ∈ [',', ';', ' ', '(', ')'], Num.lower c = c ∧ c.toNat < 128 := by decide
  refine ⟨?_, fun c hc => (one c (h.2 c hc)).2, h.2⟩
  rw [List.map_congr_left (g := id) fun c hc => (one c (h.2 c hc)).1, List.map_id]

theorem word_lower {s : Str} (h : Word s) : s.map Num.lower = s ∧ Ascii s ∧ ∀ c ∈ s, c ∉ seps := by
  refine ⟨?_, fun c hc => (h.2 c hc).1, fun c hc => (h.2 c hc).2.2⟩
  rw [List.map_congr_left (g := id) fun c hc => ?_, List.map_id]
  unfold Num.lower
  rw [if_neg (h.2 c hc).2.1]
  rfl

/-- The text of a colour with a name in front. -/
def parens (w g0 a g1 b g2 c g3 : Str) : Str := w ++ (g0 ++ (a ++ (g1 ++ (b ++ (g2 ++ (c ++ g3))))))

theorem split_parens {w g0 a g1 b g2 c g3 : Str} (hw : Word w) (h0 : Gap g0) (ha : Word a) (h1 : Gap g1) (hb : Word b) (h2 : Gap g2)
    (hc : Word c) (h3 : ∀ x ∈ g3, x ∈ seps) : splitStr (parens w g0 a g1 b g2 c g3) seps = [w, a, b, c] := by
  have hs : cstr seps = seps := by decide
  have hd : ∀ {g r : Str}, Gap g → ∀ x, (g ++ r).head? = some x → x ∈ seps := by
    intro g r hg x hx
    obtain ⟨y, t, rfl⟩ := List.exists_cons_of_ne_nil hg.1
    simp at hx
    subst hx
    exact hg.2 _ (by simp)
  unfold splitStr parens
  rw [hs]
  have e1 := splitLoop_piece (sep := seps) (g := []) (p := w) (rest := g0 ++ (a ++ (g1 ++ (b ++ (g2 ++ (c ++ g3)))))) (by simp) hw.1
    (word_lower hw).2.2 (hd h0)
  have e2 := splitLoop_piece (sep := seps) (g := g0) (p := a) (rest := g1 ++ (b ++ (g2 ++ (c ++ g3)))) h0.2 ha.1 (word_lower ha).2.2 (hd h1)
  have e3 := splitLoop_piece (sep := seps) (g := g1) (p := b) (rest := g2 ++ (c ++ g3)) h1.2 hb.1 (word_lower hb).2.2 (hd h2)
  have e4 := splitLoop_piece (sep := seps) (g := g2) (p := c) (rest := g3) h2.2 hc.1 (word_lower hc).2.2 (by
    intro x hx
    cases g3 with
    | nil => simp at hx
    | cons y t => simp at hx; subst hx; exact h3 _ (by simp))
  simp only [List.nil_append, List.append_assoc] at e1 e2 e3 e4
  rw [e1, e2, e3, e4, splitLoop_done h3]

theorem parens_lower {w w' g0 a g1 b g2 c g3 : Str} (hw : w.map Num.lower = w') (hwa : Ascii w) (h0 : Gap g0) (ha : Word a) (h1 : Gap g1)
    (hb : Word b) (h2 : Gap g2) (hc : Word c) (h3 : ∀ x ∈ g3, x ∈ [',', ';', ' ', '(', ')']) :
    (parens w g0 a g1 b g2 c g3).map Num.lower = parens w' g0 a g1 b g2 c g3 ∧ Ascii (parens w g0 a g1 b g2 c g3) := by
  have one : ∀ c ∈ [',', ';', ' ', '(', ')'], Num.lower c = c ∧ c.toNat < 128 := by decide
  have e3 : g3.map Num.lower = g3 := by
    rw [List.map_congr_left (g := id) fun c hc => (one c (h3 c hc)).1, List.map_id]
  unfold parens
  refine ⟨?_, ?_⟩
  · simp only [List.map_append, hw, (gap_lower h0).1, (gap_lower h1).1, (gap_lower h2).1, (word_lower ha).1, (word_lower hb).1,
      (word_lower hc).1, e3]
  · intro x hx
    simp only [List.mem_append] at hx
    rcases hx with hx | hx | hx | hx | hx | hx | hx | hx
    · exact hwa x hx
    · exact (gap_lower h0).2.1 x hx
    · exact (word_lower ha).2.1 x hx
    · exact (gap_lower h1).2.1 x hx
    · exact (word_lower hb).2.1 x hx
    · exact (gap_lower h2).2.1 x hx
    · exact (word_lower hc).2.1 x hx
    · exact (one x (h3 x hx)).2

/-- `rgb(a, b, c)` with capital or small letters and any separators: the numbers divided by 255. -/
theorem C129_rgb {w g0 a g1 b g2 c g3 : Str} {x y z : Fl} (hw : w.map Num.lower = "rgb".toList) (hwa : Ascii w) (h0 : Gap g0) (ha : Word a)
    (h1 : Gap g1) (hb : Word b) (h2 : Gap g2) (hc : Word c) (h3 : ∀ x ∈ g3, x ∈ [',', ';', ' ', '(', ')']) (hx : stof a = some x)
    (hy : stof b = some y) (hz : stof c = some z) (n : PropNode) (hn : n.value = parens w g0 a g1 b g2 c g3) (col : Rgba) :
    fromNode n col = .ok (true, ⟨div binary32 x (ofNat 255), div binary32 y (ofNat 255), div binary32 z (ofNat 255), ofNat 1⟩) := by
  obtain ⟨e, hasc⟩ := parens_lower hw hwa h0 ha h1 hb h2 hc h3
  have hne : parens w g0 a g1 b g2 c g3 ≠ [] := by simp [parens, ha.1]
  have hrgb : Word "rgb".toList := ⟨by decide, by decide⟩
  rw [fromNode_text hasc hne col n hn, e]
  have ho : ofText (parens "rgb".toList g0 a g1 b g2 c g3) =
      some ⟨div binary32 x (ofNat 255), div binary32 y (ofNat 255), div binary32 z (ofNat 255), ofNat 1⟩ := by
    unfold ofText
    have b1 : strBeginsWith (parens "rgb".toList g0 a g1 b g2 c g3) "rgb".toList = true := by simp [strBeginsWith, parens]
    simp only [b1, Bool.true_or, if_true, split_parens hrgb h0 ha h1 hb h2 hc h3, hx, hy, hz]
  rw [ho]

/-- `hsv(a, b, c)`: the hue, and saturation and value in percent. -/
theorem C129_hsv {w g0 a g1 b g2 c g3 : Str} {x y z : Fl} (hw : w.map Num.lower = "hsv".toList) (hwa : Ascii w) (h0 : Gap g0) (ha : Word a)
    (h1 : Gap g1) (hb : Word b) (h2 : Gap g2) (hc : Word c) (h3 : ∀ x ∈ g3, x ∈ [',', ';', ' ', '(', ')']) (hx : stof a = some x)
    (hy : stof b = some y) (hz : stof c = some z) (n : PropNode) (hn : n.value = parens w g0 a g1 b g2 c g3) (col : Rgba) :
    fromNode n col = .ok (true, fromHsv x (div binary32 y (ofNat 100)) (div binary32 z (ofNat 100))) := by
  obtain ⟨e, hasc⟩ := parens_lower hw hwa h0 ha h1 hb h2 hc h3
  have hne : parens w g0 a g1 b g2 c g3 ≠ [] := by simp [parens, ha.1]
  have hhsv : Word "hsv".toList := ⟨by decide, by decide⟩
  rw [fromNode_text hasc hne col n hn, e]
  have ho : ofText (parens "hsv".toList g0 a g1 b g2 c g3) = some (fromHsv x (div binary32 y (ofNat 100)) (div binary32 z (ofNat 100))) := by
    unfold ofText
    have b1 : strBeginsWith (parens "hsv".toList g0 a g1 b g2 c g3) "rgb".toList = false := begins_head (by decide)
    have b2 : strBeginsWith (parens "hsv".toList g0 a g1 b g2 c g3) "hsv".toList = true := by simp [strBeginsWith, parens]
    simp only [b1, b2, Bool.false_or, if_true, split_parens hhsv h0 ha h1 hb h2 hc h3, hx, hy, hz, Bool.false_eq_true, if_false]
  rw [ho]

/-- Whole numbers are read exactly. -/
theorem bytes_read : ∀ b : Fin 256, stof (natToStr b) = some (ofNat b) ∧ floatToByte binary32 (div binary32 (ofNat b) (ofNat 255)) = .ok b.val := by
  decide +kernel

theorem byte_word (b : Nat) : Word (natToStr b) := by
  obtain ⟨h1, h2, -⟩ := natToStr_spec b
  refine ⟨h2, fun c hc => ?_⟩
  have := h1 c hc
  simp only [isDigitC, Bool.and_eq_true, decide_eq_true_eq] at this
  refine ⟨by omega, by omega, ?_⟩
  intro hm
  have : ∀ c ∈ [',', ';', ' ', '(', ')'], ¬ (48 ≤ c.toNat ∧ c.toNat ≤ 57) := by decide
  exact this c hm (by omega)

/-- The bytes given as `rgb(r, g, b)` are the bytes of the colour number. -/
theorem C129_rgb_bytes {r g b : Nat} (hr : r < 256) (hg : g < 256) (hb : b < 256) (n : PropNode)
    (hn : n.value = parens "rgb".toList ['('] (natToStr r) [',', ' '] (natToStr g) [',', ' '] (natToStr b) [')']) (col : Rgba) :
    ∃ d, fromNode n col = .ok (true, d) ∧ hexRgb binary32 d = .ok (r <<< 16 ||| g <<< 8 ||| b) := by
  have gp : ∀ s, s = ['('] ∨ s = [',', ' '] → Gap s := by
    rintro s (rfl | rfl)
    · exact ⟨by simp, by decide⟩
    · exact ⟨by simp, by decide⟩
  have h := C129_rgb (w := "rgb".toList) (by decide) (by unfold Ascii; decide) (gp _ (.inl rfl)) (byte_word r) (gp _ (.inr rfl)) (byte_word g) (gp _ (.inr rfl))
    (byte_word b) (by decide) (bytes_read ⟨r, hr⟩).1 (bytes_read ⟨g, hg⟩).1 (bytes_read ⟨b, hb⟩).1 n hn col
  refine ⟨_, h, ?_⟩
  have b1 := (bytes_read ⟨r, hr⟩).2
  have b2 := (bytes_read ⟨g, hg⟩).2
  have b3 := (bytes_read ⟨b, hb⟩).2
  simp only [hexRgb, b1, b2, b3, Res.bind]

/-- The components are not the same as those of the hexadecimal number: they differ by rounding, so that the two colours are
not equal. -/
theorem C129_same_violated : fromNode (.leaf "rgb(3,3,3)".toList) ⟨ofNat 0, ofNat 0, ofNat 0, ofNat 0⟩ ≠
    fromNode (.leaf "030303".toList) ⟨ofNat 0, ofNat 0, ofNat 0, ofNat 0⟩ := by decide +kernel

/-- A word that is no colour is taken for a hexadecimal number if its first letter is a digit of such a number: blue is nearly
black. -/
theorem C129_word_violated (c : Rgba) : fromNode (.leaf "blue".toList) c = .ok (true, fromHexRgb binary32 0x00000b) ∧
    fromNode (.leaf "cyan".toList) c = .ok (true, fromHexRgb binary32 0x00000c) ∧
    fromNode (.leaf "-1".toList) c = .ok (true, fromHexRgb binary32 0xffffff) := by
  have ha : ∀ s ∈ ["blue".toList, "cyan".toList, "-1".toList], Ascii s ∧ s ≠ [] := by
    unfold Ascii; decide +kernel
  refine ⟨?_, ?_, ?_⟩
  · rw [fromNode_text (s := "blue".toList) (ha _ (by simp)).1 (ha _ (by simp)).2 c _ rfl,
      show ofText ("blue".toList.map Num.lower) = some (fromHexRgb binary32 0x00000b) by decide +kernel]
  · rw [fromNode_text (s := "cyan".toList) (ha _ (by simp)).1 (ha _ (by simp)).2 c _ rfl,
      show ofText ("cyan".toList.map Num.lower) = some (fromHexRgb binary32 0x00000c) by decide +kernel]
  · rw [fromNode_text (s := "-1".toList) (ha _ (by simp)).1 (ha _ (by simp)).2 c _ rfl,
      show ofText ("-1".toList.map Num.lower) = some (fromHexRgb binary32 0xffffff) by decide +kernel]

/-- The usual forms with an alpha component and with a number sign are refused. -/
theorem C129_forms_violated (c : Rgba) : fromNode (.leaf "rgba(255, 0, 0, 1)".toList) c = .ok (false, c) ∧
    fromNode (.leaf "#ff0000".toList) c = .ok (false, c) := by
  have ha : ∀ s ∈ ["rgba(255, 0, 0, 1)".toList, "#ff0000".toList], Ascii s ∧ s ≠ [] := by
    unfold Ascii; decide +kernel
  refine ⟨?_, ?_⟩
  · rw [fromNode_text (s := "rgba(255, 0, 0, 1)".toList) (ha _ (by simp)).1 (ha _ (by simp)).2 c _ rfl,
      show ofText ("rgba(255, 0, 0, 1)".toList.map Num.lower) = none by decide +kernel]
  · rw [fromNode_text (s := "#ff0000".toList) (ha _ (by simp)).1 (ha _ (by simp)).2 c _ rfl,
      show ofText ("#ff0000".toList.map Num.lower) = none by decide +kernel]

/-! Components. -/

/-- A child that can be read as number. -/
def Reads (n : PropNode) (v : Fl) : Prop := Num.strtod binary32 n.value = some v

theorem get_reads {n : PropNode} {v : Fl} (h : Reads n v) : Conv.get flC n = .ok v := by
  unfold Conv.get flC Conv.Text.conv Conv.flT
  show (Res.ok (Num.strtod binary32 n.value)).bind _ = _
  rw [h]
  rfl

theorem get_not {n : PropNode} (h : Num.strtod binary32 n.value = none) : Conv.get flC n = .err := by
  unfold Conv.get flC Conv.Text.conv Conv.flT
  show (Res.ok (Num.strtod binary32 n.value)).bind _ = _
  rw [h]
  rfl

/-- Three or more children: each component is the child of that name, or else the child at that place; the children at these
places must be numbers all the same. The alpha component stays as it is without a fourth child. -/
theorem C129_components_partial {n : PropNode} (hv : n.value = []) (hh : n.tryGetChild ['h'] = none) (hs : n.tryGetChild ['s'] = none)
    (hV : n.tryGetChild ['v'] = none) {k0 k1 k2 : Str} {n0 n1 n2 : PropNode} {rest : PropNode.Kids}
    (hk : n.kids = (k0, n0) :: (k1, n1) :: (k2, n2) :: rest) {d0 d1 d2 r g b : Fl}
    (h0 : Reads n0 d0) (h1 : Reads n1 d1) (h2 : Reads n2 d2)
    (hr : match n.tryGetChild ['r'] with | some m => Reads m r | none => r = d0)
    (hg : match n.tryGetChild ['g'] with | some m => Reads m g | none => g = d1)
    (hb : match n.tryGetChild ['b'] with | some m => Reads m b | none => b = d2) (c : Rgba) :
    (rest = [] → fromNode n c = .ok (true, ⟨r, g, b, c.a⟩)) ∧
    (∀ k3 n3 t d3 a, rest = (k3, n3) :: t → Reads n3 d3 → (match n.tryGetChild ['a'] with | some m => Reads m a | none => a = d3) →
      fromNode n c = .ok (true, ⟨r, g, b, a⟩)) := by
  have idx : ∀ (i : Nat) (k : Str) (m : PropNode) (d : Fl), n.kids[i]? = some (k, m) → Reads m d → Conv.getIdx flC n i = .ok d := by
    intro i k m d hi hm
    unfold Conv.getIdx
    show (n.getChildIdx i).bind _ = _
    have : n.getChildIdx i = .ok m := by
      unfold PropNode.getChildIdx
      rw [if_neg (Nat.not_le.2 (List.getElem?_eq_some_iff.1 hi).1), hi]
      rfl
    rw [this]
    exact get_reads hm
  have def' : ∀ (k : Str) (d v : Fl), (match n.tryGetChild k with | some m => Reads m v | none => v = d) → Conv.getDef flC n k d = .ok v := by
    intro k d v h
    unfold Conv.getDef
    cases hc : n.tryGetChild k with
    | none => rw [hc] at h; simp only at h; rw [h]
    | some m => rw [hc] at h; exact get_reads h
  have cr : comp n ['r'] 0 = .ok r := by unfold comp; rw [idx 0 k0 n0 d0 (by rw [hk]; rfl) h0]; exact def' _ _ _ hr
  have cg : comp n ['g'] 1 = .ok g := by unfold comp; rw [idx 1 k1 n1 d1 (by rw [hk]; rfl) h1]; exact def' _ _ _ hg
  have cb : comp n ['b'] 2 = .ok b := by unfold comp; rw [idx 2 k2 n2 d2 (by rw [hk]; rfl) h2]; exact def' _ _ _ hb
  have hv' : n.hasValue = false := by simp [PropNode.hasValue, hv]
  have key : (n.hasKey ['h'] || n.hasKey ['s'] || n.hasKey ['v']) = false := by simp [PropNode.hasKey, hh, hs, hV]
  have len : 3 ≤ n.kids.length := by rw [hk]; simp
  refine ⟨fun hn => ?_, fun k3 n3 t d3 a hn h3 ha => ?_⟩
  · have l4 : ¬ 4 ≤ n.kids.length := by rw [hk, hn]; simp
    unfold fromNode
    rw [hv', key]
    simp only [Bool.false_eq_true, if_false, len, if_true, cr, cg, cb, step, l4]
  · have l4 : 4 ≤ n.kids.length := by rw [hk, hn]; simp
    have ca : comp n ['a'] 3 = .ok a := by unfold comp; rw [idx 3 k3 n3 d3 (by rw [hk, hn]; rfl) h3]; exact def' _ _ _ ha
    unfold fromNode
    rw [hv', key]
    simp only [Bool.false_eq_true, if_false, len, if_true, cr, cg, cb, ca, step, l4]

/-- Named components are refused if another child in front of them is not a number. -/
theorem C129_named_violated (c : Rgba) : fromNode (.mk [] [("name".toList, .leaf "x".toList), (['r'], .leaf ['1']), (['g'], .leaf ['1']),
    (['b'], .leaf ['1'])] false) c = .ok (false, c) := by
  have e : comp (.mk [] [("name".toList, .leaf "x".toList), (['r'], .leaf ['1']), (['g'], .leaf ['1']), (['b'], .leaf ['1'])] false) ['r'] 0 = .err := by
    decide +kernel
  unfold fromNode
  rw [if_neg (by decide), if_neg (by decide), if_pos (by decide), e]
  rfl

/-- A colour that is refused can be changed nevertheless. -/
theorem C129_refused_violated (c : Rgba) : fromNode (.mk [] [([], .leaf ['1']), ([], .leaf ['x']), ([], .leaf ['0'])] false) c =
    .ok (false, { c with r := ofNat 1 }) := by
  have e0 : comp (.mk [] [([], .leaf ['1']), ([], .leaf ['x']), ([], .leaf ['0'])] false) ['r'] 0 = .ok (ofNat 1) := by decide +kernel
  have e1 : comp (.mk [] [([], .leaf ['1']), ([], .leaf ['x']), ([], .leaf ['0'])] false) ['g'] 1 = .err := by decide +kernel
  unfold fromNode
  rw [if_neg (by decide), if_neg (by decide), if_pos (by decide), e0]
  simp only [step, e1]

/-- A text or named hue that is refused leaves the colour as it was. -/
theorem C129_refused_partial {n : PropNode} {c d : Rgba} (h : fromNode n c = .ok (false, d))
    (hn : n.hasValue = true ∨ n.hasKey ['h'] = true ∨ n.hasKey ['s'] = true ∨ n.hasKey ['v'] = true) : d = c := by
  unfold fromNode at h
  by_cases hv : n.hasValue = true
  · rw [if_pos hv] at h
    cases hl : Text.toLower n.value with
    | ok s =>
      rw [hl] at h
      simp only [Res.map] at h
      cases ho : ofText s with
      | none => rw [ho] at h; simp at h; exact h.symm
      | some e => rw [ho] at h; simp at h
    | err => rw [hl] at h; cases h
    | ub => rw [hl] at h; cases h
  · have hk : (n.hasKey ['h'] || n.hasKey ['s'] || n.hasKey ['v']) = true := by
      rcases hn with hn | hn | hn | hn
      · exact absurd hn hv
      · simp [hn]
      · simp [hn]
      · simp [hn]
    rw [if_neg hv, if_pos hk] at h
    generalize Conv.getDef flC n ['h'] (ofNat 0) = a at h
    generalize Conv.getDef flC n ['s'] (ofNat 1) = b at h
    generalize Conv.getDef flC n ['v'] (ofNat 1) = e at h
    cases a <;> cases b <;> cases e <;> simp_all [step]

/-- No exception leaves the function, and every plain text has an outcome. -/
theorem C129_total_partial {n : PropNode} (h : Ascii n.value) (c : Rgba) : ∃ r d, fromNode n c = .ok (r, d) := by
  have nub : ∀ m : PropNode, Conv.get flC m ≠ .ub := by
    intro m
    cases hm : Num.strtod binary32 m.value with
    | none => rw [get_not hm]; simp
    | some v => rw [get_reads hm]; simp
  have d1 : ∀ k v, Conv.getDef flC n k v ≠ .ub := by
    intro k v
    unfold Conv.getDef
    split
    · exact nub _
    · simp
  have d2 : ∀ k i, comp n k i ≠ .ub := by
    intro k i
    unfold comp Conv.getIdx
    show Res.bind (Res.bind (n.getChildIdx i) _) _ ≠ _
    cases hg : n.getChildIdx i with
    | ok m =>
      simp only [Res.bind]
      cases hm : Num.strtod binary32 m.value with
      | none => rw [get_not hm]; simp
      | some v => rw [get_reads hm]; exact d1 _ _
    | err => simp [Res.bind]
    | ub =>
      exfalso
      unfold PropNode.getChildIdx at hg
      by_cases hi : i < n.kids.length
      · rw [if_neg (Nat.not_le.2 hi), List.getElem?_eq_getElem hi] at hg
        cases hg
      · rw [if_pos (Nat.not_lt.1 hi)] at hg
        cases hg
  have st : ∀ (r : Res Fl) (c : Rgba) (f : Fl → Res (Bool × Rgba)), r ≠ .ub → (∀ v, ∃ b d, f v = .ok (b, d)) → ∃ b d, step r c f = .ok (b, d) := by
    intro r c f hr hf
    cases r with
    | ok v => exact hf v
    | err => exact ⟨_, _, rfl⟩
    | ub => exact absurd rfl hr
  by_cases hv : n.hasValue = true
  · rw [fromNode_text h (by simpa [PropNode.hasValue] using hv) c n rfl]
    exact ⟨_, _, rfl⟩
  · unfold fromNode
    rw [if_neg hv]
    split
    · exact st _ _ _ (d1 _ _) fun _ => st _ _ _ (d1 _ _) fun _ => st _ _ _ (d1 _ _) fun _ => ⟨_, _, rfl⟩
    · split
      · refine st _ _ _ (d2 _ _) fun _ => st _ _ _ (d2 _ _) fun _ => st _ _ _ (d2 _ _) fun _ => ?_
        split
        · exact st _ _ _ (d2 _ _) fun _ => ⟨_, _, rfl⟩
        · exact ⟨_, _, rfl⟩
      · exact ⟨_, _, rfl⟩

/-- A text with other characters is undefined. -/
theorem C129_text_violated (c : Rgba) : fromNode (.leaf [Char.ofNat 0xC3]) c = .ub := by
  have : Text.toLower [Char.ofNat 0xC3] = .ub := by decide +kernel
  unfold fromNode
  rw [if_pos (by decide), show (PropNode.leaf [Char.ofNat 0xC3]).value = [Char.ofNat 0xC3] from rfl, this]
  rfl

example : hexText [(true, 15), (false, 15), (false, 8), (false, 0), (false, 0), (false, 1)] = "Ff8001".toList := by decide
example : parens "rgb".toList ['('] (natToStr 255) [',', ' '] (natToStr 0) [',', ' '] (natToStr 7) [')'] = "rgb(255, 0, 7)".toList := by decide
example : stof "12.5".toList = some (.fin false (25 / 2)) := by decide +kernel
/-- Green. -/
example : fromHsv (ofNat 120) (ofNat 1) (ofNat 1) = ⟨ofNat 0, ofNat 1, ofNat 0, ofNat 1⟩ := by decide +kernel

end Xo.ColNode
