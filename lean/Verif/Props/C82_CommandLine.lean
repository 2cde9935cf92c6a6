import Verif.Model.Args
import Verif.Lemmas.PropNode

/-!
C82: command lines. A command line is written from plain arguments, options with a value and options without; what `arg_parser` and
`prop_node_from_arg` give back is compared with what was written.
-/
namespace Xo
namespace Spec
/-- A part of a command line: a plain argument, or an option with a number of extra dashes, a name and perhaps a value. -/
inductive Arg where
  | plain (v : Str)
  | opt (extra : Nat) (name : Str) (value : Option Str)
deriving DecidableEq

/-- The words of a part. -/
def Arg.words : Arg → List Str
  | .plain v => [v]
  | .opt e n none => ['-' :: (List.replicate e '-' ++ n)]
  | .opt e n (some v) => ['-' :: (List.replicate e '-' ++ n), v]

/-- Text that does not look like an option. -/
def NoDash (s : Str) : Prop := s.head? ≠ some '-'

/-- Values and names do not begin with a dash. -/
def Arg.Ok : Arg → Prop
  | .plain v => NoDash v
  | .opt _ n v => NoDash n ∧ ∀ x, v = some x → NoDash x

/-- The name of an option. -/
def Arg.name : Arg → Option Str
  | .plain _ => none
  | .opt _ n _ => some n

/-- The value that an option of this name has in this part. -/
def Arg.valueOf (f : Str) : Arg → Option (Option Str)
  | .plain _ => none
  | .opt _ n v => if n = f then some v else none

/-- No option without value stands right before a plain argument, which would become its value. -/
def Separated : List Arg → Prop
  | .opt _ _ none :: .plain _ :: _ => False
  | _ :: as => Separated as
  | [] => True
end Spec
open Spec Args PropNode

namespace Args

theorem countDashes_replicate {n : Str} (h : NoDash n) : ∀ e, countDashes (List.replicate e '-' ++ n) = e
  | 0 => by
    cases n with
    | nil => rfl
    | cons c cs => simp [NoDash] at h; simp [countDashes, h]
  | e + 1 => by rw [List.replicate_succ, List.cons_append, countDashes, if_pos rfl, countDashes_replicate h e]

theorem countDashes_opt {n : Str} (h : NoDash n) (e : Nat) : countDashes ('-' :: (List.replicate e '-' ++ n)) = e + 1 := by
  rw [countDashes, if_pos rfl, countDashes_replicate h]

theorem drop_opt {n : Str} (h : NoDash n) (e : Nat) :
    ('-' :: (List.replicate e '-' ++ n)).drop (countDashes ('-' :: (List.replicate e '-' ++ n))) = n := by
  rw [countDashes_opt h, List.drop_succ_cons]
  simp

theorem countDashes_noDash {s : Str} (h : NoDash s) : countDashes s = 0 := by
  cases s with
  | nil => rfl
  | cons c cs => simp [NoDash] at h; simp [countDashes, h]

theorem begins_noDash {s : Str} (h : NoDash s) : strBeginsWith s ['-'] = false := by
  cases s with
  | nil => rfl
  | cons c cs => simp [NoDash] at h; simp [strBeginsWith, h]

theorem begins_dash (s : Str) : strBeginsWith ('-' :: s) ['-'] = true := by simp [strBeginsWith]

theorem findFlagFrom_shift (f : Str) : ∀ (as : List Str) (i : Nat), findFlagFrom f i as = (findFlagFrom f 0 as).map (· + i)
  | [], i => rfl
  | a :: as, i => by
    rw [findFlagFrom, findFlagFrom]
    split
    · simp
    · rw [findFlagFrom_shift f as (i + 1), findFlagFrom_shift f as (0 + 1)]
      cases findFlagFrom f 0 as <;> simp; omega

theorem findFlag_cons (f a : Str) (as : List Str) : findFlag (a :: as) f =
    if countDashes a > 0 ∧ a.drop (countDashes a) = f then some 0 else (findFlag as f).map (· + 1) := by
  unfold findFlag
  rw [findFlagFrom, findFlagFrom_shift f as (0 + 1)]

theorem findFlag_lt {f : Str} : ∀ {as : List Str} {i : Nat}, findFlag as f = some i → i < as.length
  | [], i, h => by simp [findFlag, findFlagFrom] at h
  | a :: as, i, h => by
    rw [findFlag_cons] at h
    split at h
    · cases h; simp
    · cases hf : findFlag as f with
      | none => rw [hf] at h; cases h
      | some j => rw [hf] at h; cases h; have := findFlag_lt hf; simp; omega

end Args

/-- **C82.** `arg_parser` reads an option from a command line: the value after the first option of the name, whatever the number of
dashes; the default value when that option has no value, or when there is no such option. -/
theorem C82_option {T : Type} (assign : Str → T → T) (dflt : T) (prog f : Str) (as : List Arg) (hok : ∀ a ∈ as, a.Ok) (hs : Separated as)
    (hlen : (as.flatMap Arg.words).length < 2 ^ 64) :
    getFlag assign (make (prog :: as.flatMap Arg.words)) f dflt = .ok (match as.findSome? (Arg.valueOf f) with
      | some (some v) => assign v dflt
      | _ => dflt) := by
  have e : make (prog :: as.flatMap Arg.words) = as.flatMap Arg.words := rfl
  rw [e]; clear e
  -- the word after the option
  have key : ∀ as : List Arg, (∀ a ∈ as, a.Ok) → Separated as → match findFlag (as.flatMap Arg.words) f with
      | none => as.findSome? (Arg.valueOf f) = none
      | some i => match (as.flatMap Arg.words)[i + 1]? with
        | none => as.findSome? (Arg.valueOf f) = some none
        | some w => if strBeginsWith w ['-'] then as.findSome? (Arg.valueOf f) = some none else as.findSome? (Arg.valueOf f) = some (some w) := by
    intro as
    induction as with
    | nil => intro _ _; rfl
    | cons a as ih =>
      intro hok hs
      have ha := hok a (by simp)
      have hs' : Separated as := by
        cases a with
        | plain v => exact hs
        | opt e n v =>
          cases v with
          | some v => exact hs
          | none => cases as with
            | nil => trivial
            | cons b as => cases b with
              | plain _ => exact hs.elim
              | opt _ _ _ => exact hs
      have ih := ih (fun b hb => hok b (List.mem_cons_of_mem _ hb)) hs'
      -- a word in front that is not the option moves the place by one
      have shift : ∀ w : Str, ¬ (countDashes w > 0 ∧ w.drop (countDashes w) = f) → ∀ (ws : List Str) (r : Option (Option Str)),
          (match findFlag ws f with
            | none => r = none
            | some i => match ws[i + 1]? with
              | none => r = some none
              | some w => if strBeginsWith w ['-'] then r = some none else r = some (some w)) →
          (match findFlag (w :: ws) f with
            | none => r = none
            | some i => match (w :: ws)[i + 1]? with
              | none => r = some none
              | some w => if strBeginsWith w ['-'] then r = some none else r = some (some w)) := by
        intro w hw ws r h
        rw [findFlag_cons, if_neg hw]
        cases hf : findFlag ws f with
        | none => rw [hf] at h; exact h
        | some i => rw [hf] at h; simpa using h
      cases a with
      | plain v =>
        have := shift v (by rw [countDashes_noDash ha]; simp) _ _ ih
        simpa [Arg.words, List.findSome?_cons, Arg.valueOf] using this
      | opt e n v =>
        by_cases hn : n = f
        · subst hn
          have hv : (Arg.opt e n v :: as).findSome? (Arg.valueOf n) = some v := by simp [List.findSome?_cons, Arg.valueOf]
          rw [hv]
          cases v with
          | none =>
            simp only [List.flatMap_cons, Arg.words, List.singleton_append]
            rw [findFlag_cons, if_pos ⟨by rw [countDashes_opt ha.1]; omega, drop_opt ha.1 e⟩]
            simp only [Nat.zero_add, List.getElem?_cons_succ]
            cases as with
            | nil => simp
            | cons b as => cases b with
              | plain _ => exact hs.elim
              | opt e2 n2 v2 => cases v2 <;> simp [Arg.words, begins_dash]
          | some x =>
            simp only [List.flatMap_cons, Arg.words, List.cons_append, List.nil_append]
            rw [findFlag_cons, if_pos ⟨by rw [countDashes_opt ha.1]; omega, drop_opt ha.1 e⟩]
            simp [begins_noDash (ha.2 x rfl)]
        · have h1 : ¬ (countDashes ('-' :: (List.replicate e '-' ++ n)) > 0 ∧
              ('-' :: (List.replicate e '-' ++ n)).drop (countDashes ('-' :: (List.replicate e '-' ++ n))) = f) := by
            rw [drop_opt ha.1]; exact fun h => hn h.2
          have hv : (Arg.opt e n v :: as).findSome? (Arg.valueOf f) = as.findSome? (Arg.valueOf f) := by
            simp [List.findSome?_cons, Arg.valueOf, hn]
          rw [hv]
          cases v with
          | none => exact shift _ h1 _ _ ih
          | some x => exact shift _ h1 _ _ (shift x (by rw [countDashes_noDash (ha.2 x rfl)]; simp) _ _ ih)
  have key := key as hok hs
  unfold getFlag
  generalize as.flatMap Arg.words = ws at *
  generalize as.findSome? (Arg.valueOf f) = r at *
  cases hf : findFlag ws f with
  | none => rw [hf] at key; simp only at key; rw [key]
  | some i =>
    rw [hf] at key
    have hi := findFlag_lt hf
    have hm : (ws.length + (2 ^ 64 - 1)) % 2 ^ 64 = ws.length - 1 := by omega
    simp only [hm]
    simp only at key
    by_cases hlt : i < ws.length - 1
    · have h1 : i + 1 < ws.length := by omega
      rw [if_pos hlt, arg, if_pos h1]
      rw [List.getElem?_eq_getElem h1] at key ⊢
      simp only [Res.ofOptionUb, Res.bind] at key ⊢
      split at key
      · next hb => rw [key, if_pos hb]
      · next hb => rw [key, if_neg hb]
    · rw [if_neg hlt]
      rw [List.getElem?_eq_none (by omega)] at key
      simp only at key
      rw [key]

/-- **C82.** An option is present exactly if it was written. -/
theorem C82_has_option (prog f : Str) (as : List Arg) (hok : ∀ a ∈ as, a.Ok) :
    hasFlag (make (prog :: as.flatMap Arg.words)) f = true ↔ ∃ a ∈ as, a.name = some f := by
  have e : make (prog :: as.flatMap Arg.words) = as.flatMap Arg.words := rfl
  rw [e]; clear e
  unfold hasFlag
  have front : ∀ (w : Str) (ws : List Str), (findFlag (w :: ws) f).isSome = true ↔
      (countDashes w > 0 ∧ w.drop (countDashes w) = f) ∨ (findFlag ws f).isSome = true := by
    intro w ws
    rw [findFlag_cons]
    split
    · next h => simp [h]
    · next h => simp [h]
  induction as with
  | nil => simp [findFlag, findFlagFrom]
  | cons a as ih =>
    have ha := hok a (by simp)
    have ih : (findFlag (as.flatMap Arg.words) f).isSome = true ↔ ∃ a ∈ as, a.name = some f :=
      ih (fun b hb => hok b (List.mem_cons_of_mem _ hb))
    cases a with
    | plain v =>
      simp only [List.flatMap_cons, Arg.words, List.singleton_append]
      rw [front, ih, countDashes_noDash ha]
      simp [Arg.name]
    | opt e n v =>
      cases v with
      | none =>
        simp only [List.flatMap_cons, Arg.words, List.singleton_append]
        rw [front, ih, drop_opt ha.1, countDashes_opt ha.1]
        simp [Arg.name]
      | some x =>
        simp only [List.flatMap_cons, Arg.words, List.cons_append, List.nil_append]
        rw [front, front, ih, drop_opt ha.1, countDashes_opt ha.1, countDashes_noDash (ha.2 x rfl)]
        simp [Arg.name]

/-- **C82.** The plain arguments in front are read by their number; there is no further one. -/
theorem C82_plain {T : Type} (assign : Str → T → T) (dflt : T) (prog : Str) (vs : List Str) (as : List Arg) (hv : ∀ v ∈ vs, NoDash v)
    (ha : ∀ b bs, as = b :: bs → ∃ e n v, b = .opt e n v) (i : Nat) :
    getPos assign (make (prog :: (vs ++ as.flatMap Arg.words))) i dflt = match vs[i]? with
      | some v => assign v dflt
      | none => dflt := by
  have e : make (prog :: (vs ++ as.flatMap Arg.words)) = vs ++ as.flatMap Arg.words := rfl
  rw [e]; clear e
  unfold getPos
  have key : ∀ (vs : List Str) (j : Nat), (∀ v ∈ vs, NoDash v) → j ≤ i →
      getPosFrom assign i dflt j (vs ++ as.flatMap Arg.words) = match vs[i - j]? with
        | some v => assign v dflt
        | none => dflt := by
    intro vs
    induction vs with
    | nil =>
      intro j _ _
      cases as with
      | nil => rfl
      | cons b bs =>
        obtain ⟨e, n, v, rfl⟩ := ha b bs rfl
        cases v <;> simp [Arg.words, getPosFrom, countDashes]
    | cons v vs ih =>
      intro j hv hj
      rw [List.cons_append, getPosFrom, countDashes_noDash (hv v (by simp)), if_neg (by omega)]
      by_cases h : j = i
      · subst h; simp
      · rw [if_neg h, ih (j + 1) (fun x hx => hv x (List.mem_cons_of_mem _ hx)) (by omega)]
        have e : i - j = (i - (j + 1)) + 1 := by omega
        rw [e, List.getElem?_cons_succ]
  exact key vs 0 hv (by omega)

example : getFlag assignInt (make ["p".toList, "x".toList, "--n".toList, "12".toList, "-v".toList]) "n".toList 5 = .ok 12 ∧
    hasFlag (make ["p".toList, "x".toList, "--n".toList, "12".toList, "-v".toList]) "v".toList = true ∧
    getPos assignStr (make ["p".toList, "x".toList, "--n".toList, "12".toList, "-v".toList]) 0 [] = "x".toList := by decide +kernel

/-- The case of the example is one of the theorems. -/
example : ([Arg.plain "x".toList, .opt 1 "n".toList (some "12".toList), .opt 0 "v".toList none].flatMap Arg.words) =
    ["x".toList, "--n".toList, "12".toList, "-v".toList] := by decide

/-- **C82 is violated by negative numbers**: the value of an option is not read when it begins with a dash, whatever the option. -/
theorem C82_negative_violated {T : Type} (assign : Str → T → T) (dflt : T) (prog f : Str) (v : Str) (hf : NoDash f) :
    getFlag assign (make [prog, '-' :: f, '-' :: v]) f dflt = .ok dflt := by
  have h0 : findFlag ['-' :: f, '-' :: v] f = some 0 := by
    have := drop_opt hf 0
    have h1 := countDashes_opt hf 0
    simp only [List.replicate_zero, List.nil_append] at this h1
    rw [findFlag_cons, if_pos ⟨by rw [h1]; omega, this⟩]
  have e : make [prog, '-' :: f, '-' :: v] = ['-' :: f, '-' :: v] := rfl
  rw [e, getFlag, h0]
  simp only [List.length_cons, List.length_nil]
  rw [if_pos (by omega), arg, if_pos (by simp)]
  simp [Res.ofOptionUb, Res.bind, begins_dash]

/-- **C82 is violated by values that are not numbers**: instead of the default value, the result is zero. -/
theorem C82_unreadable_violated (dflt : Int) : getFlag assignInt (make ["p".toList, "-n".toList, "many".toList]) "n".toList dflt = .ok 0 := by
  have h : findFlag ["-n".toList, "many".toList] "n".toList = some 0 := by decide
  have e : make ["p".toList, "-n".toList, "many".toList] = ["-n".toList, "many".toList] := rfl
  rw [e, getFlag, h]
  have e1 : (assignInt "many".toList dflt) = 0 := by unfold assignInt; decide +kernel
  have e2 : strBeginsWith "many".toList ['-'] = false := by decide
  simp only [List.length_cons, List.length_nil]
  rw [if_pos (by omega), arg, if_pos (by simp)]
  show Res.ok (if strBeginsWith "many".toList ['-'] = true then dflt else assignInt "many".toList dflt) = _
  rw [e2, e1]
  rfl

/-! ### `prop_node_from_arg` -/

namespace Spec
/-- The children that the options of a command line stand for, in order; plain arguments stand for one child without a name, which has the
last of them, at the place of the first. -/
def optionKids : List Arg → List (Str × PropNode)
  | [] => []
  | .plain _ :: as => optionKids as
  | .opt e n v :: as => (List.replicate e '-' ++ n, .leaf (v.getD [])) :: optionKids as

/-- The plain arguments. -/
def plains : List Arg → List Str
  | [] => []
  | .plain v :: as => v :: plains as
  | .opt _ _ _ :: as => plains as
end Spec

namespace Args

theorem step_plain {s : State} {v : Str} (h : NoDash v) (hp : s.pending = false) :
    step s v = .ok ⟨s.pn.updOrAdd [] (fun c => .mk v c.kids c.flag), false⟩ := by
  unfold step; simp [begins_noDash h, hp]

theorem step_value {s : State} {v : Str} (h : NoDash v) (hp : s.pending = true) :
    step s v = .ok ⟨s.pn.withKids (setLast v s.pn.kids), false⟩ := by
  unfold step; simp [begins_noDash h, hp]

theorem step_opt (s : State) (k : Str) : step s ('-' :: k) = .ok ⟨s.pn.addChild k .empty, true⟩ := by
  unfold step; simp [begins_dash, midStr, substr, Res.bind]

theorem setLast_append (v : Str) (k : Str) (c : PropNode) : ∀ ks : Kids, setLast v (ks ++ [(k, c)]) = ks ++ [(k, .mk v c.kids c.flag)]
  | [] => rfl
  | [p] => by obtain ⟨k1, c1⟩ := p; rfl
  | p :: q :: ks => by
    have := setLast_append v k c (q :: ks)
    simp only [List.cons_append] at this ⊢
    rw [setLast, this]

/-- One part of a command line, in a state where no value is expected, or after an option without value when the part is an option. -/
theorem run_words (s : State) (a : Arg) (ha : a.Ok) (rest : List Str) (hp : s.pending = false ∨ ∃ e n v, a = .opt e n v) :
    run s (a.words ++ rest) = run (match a with
      | .plain v => ⟨s.pn.updOrAdd [] (fun c => .mk v c.kids c.flag), false⟩
      | .opt e n none => ⟨s.pn.addChild (List.replicate e '-' ++ n) .empty, true⟩
      | .opt e n (some v) => ⟨s.pn.addChild (List.replicate e '-' ++ n) (.leaf v), false⟩) rest := by
  cases a with
  | plain v =>
    have hp : s.pending = false := by
      rcases hp with h | ⟨e, n, x, h⟩
      · exact h
      · cases h
    simp only [Arg.words, List.singleton_append, run]
    rw [step_plain ha hp]
    rfl
  | opt e n v =>
    cases v with
    | none =>
      simp only [Arg.words, List.singleton_append, run]
      rw [step_opt]
      rfl
    | some v =>
      simp only [Arg.words, List.cons_append, List.nil_append, run]
      rw [step_opt]
      simp only [Res.bind]
      rw [step_value (ha.2 v rfl) rfl]
      simp only [addChild, kids_withKids, setLast_append, Res.bind]
      rfl

end Args

/-- **C82.** Without plain arguments, `prop_node_from_arg` gives the program as value and the options as children, in order. -/
theorem C82_tree (prog : Str) (as : List Arg) (hok : ∀ a ∈ as, a.Ok) (hp : plains as = []) :
    fromArg (prog :: as.flatMap Arg.words) = .ok (.mk prog (optionKids as) false) := by
  have key : ∀ (as : List Arg) (ks : Kids) (b : Bool), (∀ a ∈ as, a.Ok) → plains as = [] → ∃ b',
      run ⟨.mk prog ks false, b⟩ (as.flatMap Arg.words) = .ok ⟨.mk prog (ks ++ optionKids as) false, b'⟩ := by
    intro as
    induction as with
    | nil => intro ks b _ _; exact ⟨b, by simp [run, optionKids]⟩
    | cons a as ih =>
      intro ks b hok hp
      cases a with
      | plain v => cases hp
      | opt e n v =>
        rw [List.flatMap_cons, run_words _ _ (hok _ (by simp)) _ (.inr ⟨e, n, v, rfl⟩)]
        cases v with
        | none =>
          obtain ⟨b', h⟩ := ih (ks ++ [(List.replicate e '-' ++ n, .empty)]) true (fun x hx => hok x (List.mem_cons_of_mem _ hx)) hp
          refine ⟨b', ?_⟩
          simp only [addChild, withKids, value_mk, kids_mk, flag_mk]
          rw [h, List.append_assoc]
          rfl
        | some x =>
          obtain ⟨b', h⟩ := ih (ks ++ [(List.replicate e '-' ++ n, .leaf x)]) false (fun x hx => hok x (List.mem_cons_of_mem _ hx)) hp
          refine ⟨b', ?_⟩
          simp only [addChild, withKids, value_mk, kids_mk, flag_mk]
          rw [h, List.append_assoc]
          rfl
  obtain ⟨b', h⟩ := key as [] false hok hp
  show (run ⟨.mk prog [] false, false⟩ (as.flatMap Arg.words)).bind _ = _
  rw [h]
  rfl

/-- The children with a name, and the child without. -/
theorem C82_tree_plain (prog : Str) (as : List Arg) (hok : ∀ a ∈ as, a.Ok) (hs : Separated as) (hn : ∀ e n v, Arg.opt e n v ∈ as → e ≠ 0 ∨ n ≠ []) :
    ∃ t, fromArg (prog :: as.flatMap Arg.words) = .ok t ∧ t.value = prog ∧ t.kids.filter (fun p => p.1 ≠ []) = optionKids as ∧
      t.kids.filter (fun p => p.1 = []) = match (plains as).getLast? with
        | none => []
        | some v => [([], .leaf v)] := by
  have key : ∀ (as : List Arg) (s : State), (∀ a ∈ as, a.Ok) → Separated as → (∀ e n v, Arg.opt e n v ∈ as → e ≠ 0 ∨ n ≠ []) →
      (s.pending = true → ∀ v bs, as ≠ .plain v :: bs) → ∀ o : Option Str,
      s.pn.kids.filter (fun p => p.1 = []) = (match o with | none => [] | some v => [([], .leaf v)]) →
      ∃ t, run s (as.flatMap Arg.words) = .ok t ∧ t.pn.value = s.pn.value ∧
        t.pn.kids.filter (fun p => p.1 ≠ []) = s.pn.kids.filter (fun p => p.1 ≠ []) ++ optionKids as ∧
        t.pn.kids.filter (fun p => p.1 = []) = (match ((plains as).getLast?).or o with | none => [] | some v => [([], .leaf v)]) := by
    intro as
    induction as with
    | nil => intro s _ _ _ _ o ho; exact ⟨s, by simp [run, optionKids, plains, ho]⟩
    | cons a as ih =>
      intro s hok hs hn hpend o ho
      have ha := hok a (by simp)
      have hok' := fun x (hx : x ∈ as) => hok x (List.mem_cons_of_mem _ hx)
      have hn' := fun e n v (h : Arg.opt e n v ∈ as) => hn e n v (List.mem_cons_of_mem _ h)
      cases a with
      | plain v =>
        have hp : s.pending = false := by
          cases h : s.pending with
          | false => rfl
          | true => exact (hpend h v as rfl).elim
        rw [List.flatMap_cons, run_words s _ ha _ (.inl hp)]
        simp only
        have hfilt : (s.pn.updOrAdd [] (fun c => .mk v c.kids c.flag)).kids.filter (fun p => p.1 = []) = [([], .leaf v)] ∧
            (s.pn.updOrAdd [] (fun c => .mk v c.kids c.flag)).kids.filter (fun p => p.1 ≠ []) = s.pn.kids.filter (fun p => p.1 ≠ []) := by
          unfold updOrAdd tryGetChild
          cases hf : findKid [] s.pn.kids with
          | none =>
            have hnone : s.pn.kids.filter (fun p => p.1 = []) = [] := by
              rw [List.filter_eq_nil_iff]
              rw [findKid_none_iff] at hf
              intro p hp hc
              exact hf (by simp only [keys, List.mem_map]; exact ⟨p, hp, by simpa using hc⟩)
            simp only [addChild, kids_withKids, List.filter_append, hnone]
            simp [empty, leaf]
          | some c =>
            obtain ⟨xs, ys, e, hx⟩ := findKid_split hf
            have hxs : xs.filter (fun p => p.1 = []) = [] := by
              rw [List.filter_eq_nil_iff]
              intro p hp hc
              exact hx (by simp only [keys, List.mem_map]; exact ⟨p, hp, by simpa using hc⟩)
            rw [e] at ho
            simp only [List.filter_append, hxs, List.nil_append, List.filter_cons, decide_true, if_true] at ho
            cases o with
            | none => cases ho
            | some v0 =>
              simp only [List.cons.injEq, Prod.mk.injEq, true_and] at ho
              rw [e]
              simp only [kids_withKids]
              rw [updKid_append_hit hx]
              constructor
              · simp only [List.filter_append, hxs, List.nil_append, List.filter_cons, decide_true, if_true, ho.2, ho.1]; rfl
              · simp
        obtain ⟨t, h1, h2, h3, h4⟩ := ih ⟨s.pn.updOrAdd [] (fun c => .mk v c.kids c.flag), false⟩ hok' (by simpa [Separated] using hs) hn' (by simp) (some v) hfilt.1
        refine ⟨t, h1, ?_, ?_, ?_⟩
        · rw [h2]; show (s.pn.updOrAdd [] _).value = _; unfold updOrAdd; split <;> rfl
        · rw [h3, hfilt.2]; rfl
        · rw [h4]
          simp only [plains]
          cases hl : (plains as).getLast? with
          | none => rw [List.getLast?_eq_none_iff] at hl; simp [hl]
          | some w => rw [List.getLast?_cons, hl]; simp
      | opt e n v =>
        rw [List.flatMap_cons, run_words s _ ha _ (.inr ⟨e, n, v, rfl⟩)]
        have hne : List.replicate e '-' ++ n ≠ [] := by
          rcases hn e n v (by simp) with h | h
          · cases e with
            | zero => exact (h rfl).elim
            | succ e => simp [List.replicate_succ]
          · simp [h]
        have hf1 : ∀ c, (s.pn.addChild (List.replicate e '-' ++ n) c).kids.filter (fun p => p.1 = []) = s.pn.kids.filter (fun p => p.1 = []) := by
          intro c
          simp only [addChild, kids_withKids, List.filter_append, List.filter_cons, List.filter_nil]
          rw [if_neg (by simpa using hne), List.append_nil]
        have hf2 : ∀ c, (s.pn.addChild (List.replicate e '-' ++ n) c).kids.filter (fun p => p.1 ≠ []) =
            s.pn.kids.filter (fun p => p.1 ≠ []) ++ [(List.replicate e '-' ++ n, c)] := by
          intro c
          simp only [addChild, kids_withKids, List.filter_append, List.filter_cons, List.filter_nil]
          rw [if_pos (by rw [decide_eq_true_eq]; exact hne)]
        cases v with
        | none =>
          have hpend' : ∀ w bs, as ≠ .plain w :: bs := by
            rintro w bs rfl
            exact hs.elim
          have hs' : Separated as := by
            cases as with
            | nil => trivial
            | cons b bs => cases b with
              | plain w => exact (hpend' w bs rfl).elim
              | opt _ _ _ => exact hs
          obtain ⟨t, h1, h2, h3, h4⟩ := ih ⟨s.pn.addChild (List.replicate e '-' ++ n) .empty, true⟩ hok' hs' hn' (fun _ => hpend') o (by rw [hf1]; exact ho)
          refine ⟨t, h1, h2, ?_, ?_⟩
          · rw [h3, hf2, List.append_assoc]; rfl
          · rw [h4]; rfl
        | some x =>
          obtain ⟨t, h1, h2, h3, h4⟩ := ih ⟨s.pn.addChild (List.replicate e '-' ++ n) (.leaf x), false⟩ hok' hs hn' (by simp) o (by rw [hf1]; exact ho)
          refine ⟨t, h1, h2, ?_, ?_⟩
          · rw [h3, hf2, List.append_assoc]; rfl
          · rw [h4]; rfl
  obtain ⟨t, h1, h2, h3, h4⟩ := key as ⟨.leaf prog, false⟩ hok hs hn (by simp) none rfl
  refine ⟨t.pn, ?_, h2, ?_, ?_⟩
  · show (run ⟨.leaf prog, false⟩ (as.flatMap Arg.words)).bind _ = _; rw [h1]; rfl
  · rw [h3]; rfl
  · rw [h4, Option.or_none]

/-- **C82 is violated by several plain arguments**: `prop_node_from_arg` keeps only the last of them. -/
theorem C82_plain_violated (prog v w : Str) (vs : List Str) (hv : ∀ x ∈ vs ++ [w], NoDash x) (hv' : NoDash v) :
    fromArg (prog :: (v :: vs ++ [w])) = fromArg [prog, w] := by
  have key : ∀ (vs : List Str) (v : Str), (∀ x ∈ vs ++ [w], NoDash x) →
      run ⟨.mk prog [([], .leaf v)] false, false⟩ (vs ++ [w]) = .ok ⟨.mk prog [([], .leaf w)] false, false⟩ := by
    intro vs
    induction vs with
    | nil =>
      intro v hv
      simp only [List.nil_append, run]
      rw [step_plain (hv w (by simp)) rfl]
      rfl
    | cons x vs ih =>
      intro v hv
      simp only [List.cons_append, run]
      rw [step_plain (hv x (by simp)) rfl]
      exact ih x (fun y hy => hv y (by simp at hy ⊢; exact .inr hy))
  have e1 : fromArg [prog, w] = .ok (.mk prog [([], .leaf w)] false) := by
    unfold fromArg
    simp only [run]
    rw [step_plain (hv w (by simp)) rfl]
    rfl
  rw [e1]
  unfold fromArg
  simp only [List.cons_append, run]
  rw [step_plain hv' rfl]
  have := key vs v hv
  simp only [Res.bind]
  have e2 : (⟨(leaf prog).updOrAdd [] (fun c => .mk v c.kids c.flag), false⟩ : State) = ⟨.mk prog [([], .leaf v)] false, false⟩ := rfl
  rw [e2, this]

/-- **C82 is violated by negative numbers**: `-x -5` gives two options without a value. -/
theorem C82_tree_negative_violated (prog x v : Str) :
    fromArg [prog, '-' :: x, '-' :: v] = .ok (.mk prog [(x, .empty), (v, .empty)] false) := by
  unfold fromArg
  simp only [run]
  rw [step_opt]
  simp only [Res.bind]
  rw [step_opt]
  rfl

/-- Two options, a plain argument and a flag. -/
example : fromArg ["p".toList, "-a".toList, "1".toList, "file".toList, "-b".toList] =
    .ok (.mk "p".toList [("a".toList, .leaf "1".toList), ([], .leaf "file".toList), ("b".toList, .empty)] false) := by rfl

end Xo
