import Verif.Model.LogFlush
import Verif.Props.C36_Log

/-!
C143: log messages and a program that stops.
-/
namespace Xo.LogFlush
open Xo Log

namespace Spec
open Xo.Spec

/-- The text of a call as a sink gets it. -/
def text (printf : Bool) (t : Str) : Str := if printf then t.take 1023 else t

open Classical in
/-- The texts that a sink is to get from the calls of a program, in order. -/
noncomputable def sent (b : Nat → Option SinkInfo) (static : Level) (i : Nat) : List Call → List Str
  | [] => []
  | .message printf t l s :: cs => (if Wants b i t l then [text printf s] else []) ++ sent b static i cs
  | .named printf t l s :: cs => (if static ≤ l ∧ Wants b i t l then [text printf s] else []) ++ sent b static i cs
  | .flush :: cs => sent b static i cs

/-- A call that writes an error, or that asks for all messages to be written. -/
def Urgent (static : Level) : Call → Prop
  | .named _ _ l _ => static ≤ l ∧ (l = 5 ∨ l = 6)
  | .flush => True
  | .message .. => False

end Spec
open Spec Xo.Spec

/-- All texts that a sink got. -/
def Buf.all (b : Buf) : List Str := b.disk ++ b.buf

/-- The texts that a sink gets by some steps. -/
def writes (i : Nat) : List Act → List Str
  | [] => []
  | .write j text :: as => if i = j then text :: writes i as else writes i as
  | .force _ :: as => writes i as

theorem acts_append (b : Nat → Buf) (x y : List Act) : acts b (x ++ y) = acts (acts b x) y := by simp [acts]

theorem writes_append (i : Nat) (x y : List Act) : writes i (x ++ y) = writes i x ++ writes i y := by
  induction x with
  | nil => rfl
  | cons a x ih =>
    cases a with
    | write j t =>
      rw [List.cons_append]
      simp only [writes]
      split
      · rw [ih]; rfl
      · exact ih
    | force j => simpa [writes] using ih

theorem acts_all (i : Nat) (as : List Act) : ∀ b : Nat → Buf, (acts b as i).all = (b i).all ++ writes i as := by
  induction as with
  | nil => intro b; simp [acts, writes]
  | cons a as ih =>
    intro b
    rw [show acts b (a :: as) = acts (act b a) as from rfl, ih]
    cases a with
    | write j t => by_cases h : i = j <;> simp [writes, act, h, Buf.all]
    | force j => by_cases h : i = j <;> simp [writes, act, h, Buf.all]

theorem acts_disk (i : Nat) (as : List Act) : ∀ b : Nat → Buf, (b i).disk <+: (acts b as i).disk := by
  induction as with
  | nil => intro b; exact List.prefix_refl _
  | cons a as ih =>
    intro b
    refine List.IsPrefix.trans ?_ (ih (act b a))
    cases a with
    | write j t => by_cases h : i = j <;> simp [act, h]
    | force j => by_cases h : i = j <;> simp [act, h]

theorem writes_handle (k : Kind) (text : Str) (i : Nat) (js : List Nat) : writes i (js.flatMap (handle k text)) = List.replicate (js.count i) text := by
  induction js with
  | nil => rfl
  | cons j js ih =>
    rw [List.flatMap_cons, writes_append, ih, List.count_cons]
    have : writes i (handle k text j) = if i = j then [text] else [] := by
      unfold handle
      by_cases h : i = j <;> by_cases h2 : k.endl j <;> simp [writes, h, h2]
    rw [this]
    by_cases h : i = j
    · simp [h, List.replicate_succ]
    · simp [h, Ne.symm h]

theorem writes_flush (s : State) (k : Kind) (i : Nat) : writes i (flush s k) = [] := by
  unfold flush
  induction s.sinks with
  | nil => rfl
  | cons j js ih =>
    rw [List.flatMap_cons, writes_append, ih]
    by_cases h : k.flushes j <;> simp [writes, h]

theorem writes_message {ops : List Op} {s : State} (h : run init ops = .ok s) (k : Kind) (i t : Nat) (l : Level) (text : Str) [Decidable (Wants (bookAll ops) i t l)] :
    writes i (message s k t l text) = (if Wants (bookAll ops) i t l then [text] else []) ∧
    writes i (messagef s k t l text) = (if Wants (bookAll ops) i t l then [text.take 1023] else []) := by
  obtain ⟨h1, h2, h3, h4⟩ := C36_message ops s h t l
  unfold message messagef
  rw [writes_handle, writes_handle, h4, ← h3]
  by_cases hw : Wants (bookAll ops) i t l
  · rw [h1 i hw, if_pos hw, if_pos hw]; exact ⟨rfl, rfl⟩
  · rw [h2 i hw, if_neg hw, if_neg hw]; exact ⟨rfl, rfl⟩

theorem writes_calls {ops : List Op} {s : State} (h : run init ops = .ok s) (k : Kind) (static : Level) (i : Nat) (cs : List Call) :
    writes i (calls s k static cs) = sent (bookAll ops) static i cs := by
  classical
  induction cs with
  | nil => rfl
  | cons c cs ih =>
    rw [show calls s k static (c :: cs) = call s k static c ++ calls s k static cs from rfl, writes_append, ih]
    cases c with
    | message p t l text =>
      have := writes_message h k i t l text
      cases p
      · simp only [call, sent, Spec.text, Bool.false_eq_true, if_false]; rw [this.1]
      · simp only [call, sent, Spec.text, if_true]; rw [this.2]
    | named p t l text =>
      have := writes_message h k i t l text
      simp only [call, sent, named]
      by_cases hs : static ≤ l
      · rw [if_pos hs, writes_append]
        have hf : writes i (if l = error ∨ l = critical then flush s k else []) = [] := by
          split
          · exact writes_flush s k i
          · rfl
        rw [hf, List.append_nil]
        cases p
        · simp only [Spec.text, Bool.false_eq_true, if_false, hs, true_and]; rw [this.1]
        · simp only [Spec.text, if_true, hs, true_and]; rw [this.2]
      · rw [if_neg hs, if_neg (fun h => hs h.1)]; rfl
    | flush => simp only [call, sent, writes_flush, List.nil_append]

/-- The buffer of a sink that hands it over after each message is empty between messages. -/
theorem handle_empty (k : Kind) (text : Str) (i : Nat) (hk : k.endl i = true) (js : List Nat) : ∀ b : Nat → Buf, (b i).buf = [] →
    (acts b (js.flatMap (handle k text)) i).buf = [] := by
  induction js with
  | nil => intro b hb; exact hb
  | cons j js ih =>
    intro b hb
    rw [List.flatMap_cons, acts_append]
    apply ih
    unfold handle acts
    by_cases h : i = j
    · subst h; simp [hk, act]
    · by_cases h2 : k.endl j <;> simp [h2, act, h, hb]

theorem force_empty (i : Nat) (k : Kind) (js : List Nat) : ∀ b : Nat → Buf, (b i).buf = [] ∨ (i ∈ js ∧ k.flushes i = true) →
    (acts b (js.flatMap fun j => if k.flushes j then [.force j] else []) i).buf = [] := by
  induction js with
  | nil => intro b hb; rcases hb with h | ⟨h, _⟩; exacts [h, absurd h (List.not_mem_nil)]
  | cons j js ih =>
    intro b hb
    rw [List.flatMap_cons, acts_append]
    apply ih
    by_cases h : i = j
    · subst h
      left
      by_cases h2 : k.flushes i
      · simp [h2, acts, act]
      · rcases hb with h | ⟨_, h⟩
        · simpa [h2, acts] using h
        · exact absurd h h2
    · rcases hb with h3 | ⟨h3, h4⟩
      · left
        by_cases h2 : k.flushes j <;> simp [h2, acts, act, h, h3]
      · right
        exact ⟨(List.mem_cons.1 h3).resolve_left h, h4⟩

theorem call_empty (s : State) (k : Kind) (static : Level) (i : Nat) (hk : k.endl i = true) (c : Call) (b : Nat → Buf) (hb : (b i).buf = []) :
    (acts b (call s k static c) i).buf = [] := by
  cases c with
  | message p t l text =>
    simp only [call]
    cases p
    · exact handle_empty k _ i hk _ b hb
    · exact handle_empty k _ i hk _ b hb
  | named p t l text =>
    simp only [call, named]
    split
    · rw [acts_append]
      have h1 : (acts b (if p = true then messagef s k t l text else message s k t l text) i).buf = [] := by
        split <;> exact handle_empty k _ i hk _ b hb
      by_cases h5 : l = error ∨ l = critical
      · rw [if_pos h5]; exact force_empty i k _ _ (.inl h1)
      · rw [if_neg h5]; exact h1
    · exact hb
  | flush => exact force_empty i k _ b (.inl hb)

theorem calls_empty (s : State) (k : Kind) (static : Level) (i : Nat) (hk : k.endl i = true) (cs : List Call) : ∀ b : Nat → Buf, (b i).buf = [] →
    (acts b (calls s k static cs) i).buf = [] := by
  induction cs with
  | nil => intro b hb; exact hb
  | cons c cs ih =>
    intro b hb
    rw [show calls s k static (c :: cs) = call s k static c ++ calls s k static cs from rfl, acts_append]
    exact ih _ (call_empty s k static i hk c b hb)

/-- After the calls `cs`, a sink with an empty buffer has handed over all its texts, and whatever follows does not change that. -/
theorem kept {ops : List Op} {s : State} (h : run init ops = .ok s) (k : Kind) (static : Level) (cs more : List Call) (n i : Nat)
    (hn : (calls s k static cs).length ≤ n) (he : (acts start (calls s k static cs) i).buf = []) :
    sent (bookAll ops) static i cs <+: crash s k static (cs ++ more) n i := by
  have e : (calls s k static (cs ++ more)).take n = calls s k static cs ++ (calls s k static more).take (n - (calls s k static cs).length) := by
    rw [show calls s k static (cs ++ more) = calls s k static cs ++ calls s k static more by simp [calls], List.take_append, List.take_of_length_le hn]
  unfold crash
  rw [e, acts_append]
  refine List.IsPrefix.trans ?_ (acts_disk i _ _)
  have ha := acts_all i (calls s k static cs) start
  rw [writes_calls h] at ha
  unfold Buf.all at ha
  rw [he] at ha
  simp only [start, List.append_nil, List.nil_append] at ha
  rw [ha]
  exact List.prefix_refl _

/-- **C143.** Wherever a program stops, what a sink has handed over is a beginning of the texts that it is to get: nothing is missing in between, changed,
or there twice. -/
theorem C143_order {ops : List Op} {s : State} (h : run init ops = .ok s) (k : Kind) (static : Level) (cs : List Call) (n i : Nat) :
    crash s k static cs n i <+: sent (bookAll ops) static i cs := by
  have h1 : crash s k static cs n i <+: (acts start (calls s k static cs) i).disk := by
    unfold crash
    conv_rhs => rw [← List.take_append_drop n (calls s k static cs), acts_append]
    exact acts_disk i _ _
  refine h1.trans ?_
  have ha := acts_all i (calls s k static cs) start
  rw [writes_calls h] at ha
  simp only [Buf.all, start, List.append_nil, List.nil_append] at ha
  exact ⟨_, ha⟩

/-- **C143, streams.** A console, a stream or a file has got every message of each call that was completed before the program stopped. -/
theorem C143_stream {ops : List Op} {s : State} (h : run init ops = .ok s) (k : Kind) (static : Level) (cs more : List Call) (n i : Nat) (hi : k.endl i = true)
    (hn : (calls s k static cs).length ≤ n) : sent (bookAll ops) static i cs <+: crash s k static (cs ++ more) n i :=
  kept h k static cs more n i hn (calls_empty s k static i hi cs start rfl)

/-- **C143, errors.** Once `error`, `critical`, or `flush` has returned, every sink whose `flush` hands over its buffer has handed over all messages so far,
the lower ones too. -/
theorem C143_urgent {ops : List Op} {s : State} (h : run init ops = .ok s) (k : Kind) (static : Level) (cs : List Call) (c : Call) (more : List Call) (n i : Nat)
    (hi : k.flushes i = true) (hr : ∃ x, bookAll ops i = some x ∧ x.registered = true) (hc : Urgent static c) (hn : (calls s k static (cs ++ [c])).length ≤ n) :
    sent (bookAll ops) static i (cs ++ [c]) <+: crash s k static (cs ++ [c] ++ more) n i := by
  refine kept h k static (cs ++ [c]) more n i hn ?_
  have hm : i ∈ s.sinks := ((log_inv ops s h).sinks i).2 hr
  rw [show calls s k static (cs ++ [c]) = calls s k static cs ++ call s k static c by simp [calls], acts_append]
  cases c with
  | message => exact hc.elim
  | flush => exact force_empty i k _ _ (.inr ⟨hm, hi⟩)
  | named p t l text =>
    obtain ⟨h1, h2⟩ := hc
    have h2 : l = error ∨ l = critical := h2
    simp only [call, named]
    rw [if_pos h1, if_pos h2, acts_append]
    exact force_empty i k _ _ (.inr ⟨hm, hi⟩)

/-- **C143 fails** for errors that are logged with `message( level::error, ... )`: the comment of `flush` says that it happens for every level from `error` on,
but a sink with a buffer still holds the text when the call has returned. -/
theorem C143_message_violated {ops : List Op} {s : State} (h : run init ops = .ok s) (k : Kind) (static : Level) (p : Bool) (t i : Nat) (l : Level) (text : Str)
    (hi : k.endl i = false) (hw : Wants (bookAll ops) i t l) :
    crash s k static [.message p t l text] (calls s k static [.message p t l text]).length i = [] ∧
    sent (bookAll ops) static i [.message p t l text] ≠ [] := by
  constructor
  · have key : ∀ (text : Str) (js : List Nat) (b : Nat → Buf), (acts b (js.flatMap (handle k text)) i).disk = (b i).disk := by
      intro text js
      induction js with
      | nil => intro b; rfl
      | cons j js ih =>
        intro b
        rw [List.flatMap_cons, acts_append, ih]
        unfold handle acts
        by_cases hj : i = j
        · subst hj; simp [hi, act]
        · by_cases h2 : k.endl j <;> simp [h2, act, hj]
    unfold crash
    rw [List.take_length]
    simp only [calls, List.flatMap_cons, List.flatMap_nil, List.append_nil, call]
    cases p
    · exact key _ _ _
    · exact key _ _ _
  · simp [sent, hw]

/-- **C143, what is left out.** A call below the level that was chosen when the program was compiled does nothing; any other logs just like `message`. -/
theorem C143_static (s : State) (k : Kind) (static : Level) (p : Bool) (t : Nat) (l : Level) (text : Str) :
    (l < static → call s k static (.named p t l text) = []) ∧
    (static ≤ l → l < 5 → call s k static (.named p t l text) = call s k static (.message p t l text)) ∧
    (static ≤ l → l = 5 ∨ l = 6 → call s k static (.named p t l text) = call s k static (.message p t l text) ++ call s k static .flush) := by
  refine ⟨fun h => if_neg (not_le.2 h), fun h h5 => ?_, fun h h5 => ?_⟩
  · simp only [call, named]
    have h6 : ¬ (l = error ∨ l = critical) := by rintro (rfl | rfl) <;> exact absurd h5 (by decide)
    rw [if_pos h, if_neg h6, List.append_nil]
  · simp only [call, named]
    have h6 : l = error ∨ l = critical := h5
    rw [if_pos h, if_pos h6]

/-- A sink with a buffer next to a stream: at level 1 both, all threads. After an information and an error, stopping one step before the end loses both
messages of the first sink, none of the second. -/
example : ∃ s, run init [.create 0 ⟨1, none⟩, .create 1 ⟨1, none⟩] = .ok s ∧
    (calls s ⟨fun i => i == 1, fun _ => true⟩ 1 [.named false 0 3 ['a'], .named false 0 5 ['b']]).length = 8 ∧
    crash s ⟨fun i => i == 1, fun _ => true⟩ 1 [.named false 0 3 ['a'], .named false 0 5 ['b']] 6 0 = [] ∧
    crash s ⟨fun i => i == 1, fun _ => true⟩ 1 [.named false 0 3 ['a'], .named false 0 5 ['b']] 6 1 = [['a'], ['b']] ∧
    crash s ⟨fun i => i == 1, fun _ => true⟩ 1 [.named false 0 3 ['a'], .named false 0 5 ['b']] 7 0 = [['a'], ['b']] :=
  ⟨_, rfl, by decide +kernel, by decide +kernel, by decide +kernel, by decide +kernel⟩

end Xo.LogFlush
