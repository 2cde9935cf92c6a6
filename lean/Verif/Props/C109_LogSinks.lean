import Verif.Model.LogSinks
import Verif.Props.C25_Split

/-!
C109: what is written to a log.
-/
namespace Xo.LogOut
open Xo Log

namespace Spec
/-- The message of a thread, complete. -/
structure Msg where
  thread : Nat
  parts : List Str

/-- The messages of one thread among all. -/
def ofThread (t : Nat) (ms : List Msg) : List (List Str) := (ms.filter (·.thread = t)).map (·.parts)

/-- The text of some messages, one after the other, each complete. -/
def whole (ms : List Msg) : Str := (ms.map fun m => m.parts.flatten).flatten

/-- The lines of a console, from the lines of a text: each with the prefix. -/
def conText (pre : Str) (lines : List Str) : Str := (lines.map fun line => pre ++ line ++ ['\n']).flatten
end Spec
open Spec

/-! ### Texts -/

/-- **C109.** The text of a message is that of its arguments, one behind the other. -/
theorem C109_message (args : List Str) : messageText args = args.flatten := by
  induction args with
  | nil => rfl
  | cons a as ih => rw [messageText, ih]; rfl

/-- **C109.** A message that is made from a format is complete if it has less than 1024 characters. -/
theorem C109_format_partial (text : Str) (h : text.length < 1024) : formatted text = text := List.take_of_length_le (by omega)

/-- **C109, violated.** Otherwise its end is missing. -/
theorem C109_format_violated (text : Str) (h : 1024 ≤ text.length) : formatted text ≠ text ∧ formatted text <+: text ∧ (formatted text).length = 1023 := by
  have hl : (formatted text).length = 1023 := by unfold formatted; simp; omega
  refine ⟨fun e => ?_, List.take_prefix _ _, hl⟩
  rw [e] at hl
  omega

/-- **C109.** On the console each line of the message that is not empty stands on its own line, with the prefix before it. A stream gets the time, the
message and the end of the line. -/
theorem C109_console (f : Format) (time : Str) (l : Level) (msg : Str) :
    ∃ lines, Xo.Spec.Splits ['\r', '\n'] msg lines ∧ (consoleParts f time l msg).flatten = conText (pre f time l) lines := by
  refine ⟨splitStr msg "\r\n".toList, C25_split msg "\r\n".toList, ?_⟩
  unfold consoleParts conText
  generalize splitStr msg "\r\n".toList = ls
  induction ls with
  | nil => rfl
  | cons x ls ih =>
    rw [List.flatMap_cons, List.flatten_append, ih]
    simp

theorem C109_stream (time msg : Str) : (streamParts time msg).flatten = time ++ msg ++ ['\n'] := by simp [streamParts]

/-- The prefix has the time and the level, if they are wanted. -/
theorem C109_prefix (time : Str) (l : Level) (hl : l = 1 ∨ l = 2 ∨ l = 3 ∨ l = 4 ∨ l = 5 ∨ l = 6) :
    pre ⟨false, false⟩ time l = [] ∧ pre ⟨true, false⟩ time l = time ∧ pre ⟨true, true⟩ time l = time ++ pre ⟨false, true⟩ time l ∧
      (pre ⟨false, true⟩ time l).length = 4 ∧ ∀ l' : Level, levelName l' = levelName l → l' = l := by
  refine ⟨rfl, by simp [pre], by simp [pre], ?_, ?_⟩
  · rcases hl with rfl | rfl | rfl | rfl | rfl | rfl <;> rfl
  · intro l'
    rcases hl with rfl | rfl | rfl | rfl | rfl | rfl <;> revert l' <;> decide

/-- Trace, debug, info, warning, error and critical messages are marked as such. -/
theorem C109_level_texts (time : Str) : ([1, 2, 3, 4, 5, 6] : List Level).map (pre ⟨false, true⟩ time) =
    ["TRC ".toList, "DBG ".toList, "INF ".toList, "WRN ".toList, "ERR ".toList, "CRT ".toList] := rfl

/-! ### Threads -/

/-- What is known at every moment. -/
structure ConInv (todo0 : Nat → List (List Str)) (c : Con) (done : List Msg) : Prop where
  text : match c.holder with
    | none => c.out = whole done
    | some (t, ps) => ∃ written, c.out = whole done ++ written.flatten ∧ (written ++ ps) :: c.todo t <:+ todo0 t ∧
        todo0 t = ofThread t done ++ (written ++ ps) :: c.todo t
  rest : ∀ u, (∀ ps, c.holder ≠ some (u, ps)) → todo0 u = ofThread u done ++ c.todo u

theorem whole_append (a b : List Msg) : whole (a ++ b) = whole a ++ whole b := by simp [whole]

theorem ofThread_append (t : Nat) (a b : List Msg) : ofThread t (a ++ b) = ofThread t a ++ ofThread t b := by simp [ofThread]

theorem con_step {todo0 : Nat → List (List Str)} {c : Con} {done : List Msg} (h : ConInv todo0 c done) (t : Nat) :
    ∃ done', ConInv todo0 (c.step t) done' := by
  unfold Con.step
  cases hh : c.holder with
  | none =>
    simp only
    cases ht : c.todo t with
    | nil => exact ⟨done, h⟩
    | cons m ms =>
      have h1 := h.text
      rw [hh] at h1
      have h2 := h.rest t (by rw [hh]; simp)
      rw [ht] at h2
      refine ⟨done, ⟨?_, ?_⟩⟩
      · refine ⟨[], by simpa using h1, ?_, ?_⟩
        · simp only [if_true, List.nil_append]
          rw [h2]
          exact List.suffix_append _ _
        · simpa using h2
      · intro u hu
        have hne : u ≠ t := by rintro rfl; exact hu m rfl
        simp only [if_neg hne]
        exact h.rest u (by rw [hh]; simp)
  | some up =>
    obtain ⟨u, ps⟩ := up
    simp only
    by_cases e : u = t
    · subst e
      rw [if_pos rfl]
      have h1 := h.text
      rw [hh] at h1
      obtain ⟨w, h2, h3, h4⟩ := h1
      cases ps with
      | nil =>
        refine ⟨done ++ [⟨u, w⟩], ⟨?_, ?_⟩⟩
        · show c.out = _
          rw [h2, whole_append]
          simp [whole]
        · intro v hv
          rw [ofThread_append]
          by_cases e : v = u
          · subst e
            rw [h4]
            simp [ofThread]
          · have := h.rest v (by rw [hh]; intro ps hp; cases hp; exact e rfl)
            rw [this]
            simp [ofThread, Ne.symm e]
      | cons p ps =>
        refine ⟨done, ⟨?_, ?_⟩⟩
        · refine ⟨w ++ [p], ?_, ?_, ?_⟩
          · show c.out ++ p = _
            rw [h2]; simp
          · simpa using h3
          · simpa using h4
        · intro v hv
          refine h.rest v ?_
          rw [hh]
          intro ps' hp
          cases hp
          exact hv _ rfl
    · rw [if_neg e]
      exact ⟨done, h⟩

theorem con_run {todo0 : Nat → List (List Str)} (ts : List Nat) : ∀ {c : Con} {done : List Msg}, ConInv todo0 c done →
    ∃ done', ConInv todo0 (c.run ts) done' := by
  induction ts with
  | nil => intro c done h; exact ⟨done, h⟩
  | cons t ts ih =>
    intro c done h
    obtain ⟨d, hd⟩ := con_step h t
    exact ih hd

/-- **C109.** The console, used by any number of threads in any order: its text is always that of whole messages one after the other, and the
beginning of one more while that is written. The messages of each thread come in its order, and none is lost. -/
theorem C109_threads (todo : Nat → List (List Str)) (ts : List Nat) :
    ∃ (done : List Msg) (part : List Str), ((Con.mk [] none todo).run ts).out = whole done ++ part.flatten ∧
      (((Con.mk [] none todo).run ts).holder = none → part = []) ∧
      (∀ t ps, ((Con.mk [] none todo).run ts).holder = some (t, ps) → todo t = ofThread t done ++ (part ++ ps) :: ((Con.mk [] none todo).run ts).todo t) ∧
      ∀ t, (∀ ps, ((Con.mk [] none todo).run ts).holder ≠ some (t, ps)) → todo t = ofThread t done ++ ((Con.mk [] none todo).run ts).todo t := by
  obtain ⟨done, h⟩ := con_run (todo0 := todo) ts (c := ⟨[], none, todo⟩) (done := []) ⟨rfl, fun u _ => rfl⟩
  cases hh : ((Con.mk [] none todo).run ts).holder with
  | none =>
    have h1 := h.text
    rw [hh] at h1
    refine ⟨done, [], by simpa using h1, fun _ => rfl, by simp, fun t ht => h.rest t (by rw [hh]; exact ht)⟩
  | some up =>
    obtain ⟨u, ps⟩ := up
    have h1 := h.text
    rw [hh] at h1
    obtain ⟨w, h2, -, h4⟩ := h1
    refine ⟨done, w, h2, by simp, ?_, fun t ht => h.rest t (by rw [hh]; exact ht)⟩
    intro t ps' e
    cases e
    exact h4

/-- A thread that holds the mutex and runs alone writes its message and gives the mutex back. -/
theorem C109_progress (ps : List Str) : ∀ (c : Con) (t : Nat), c.holder = some (t, ps) →
    (c.run (List.replicate (ps.length + 1) t)).holder = none ∧ (c.run (List.replicate (ps.length + 1) t)).out = c.out ++ ps.flatten := by
  induction ps with
  | nil =>
    intro c t h
    simp [Con.run, Con.step, h]
  | cons p ps ih =>
    intro c t h
    rw [List.length_cons, List.replicate_succ, Con.run]
    have e : c.step t = { c with out := c.out ++ p, holder := some (t, ps) } := by simp [Con.step, h]
    rw [e]
    obtain ⟨h1, h2⟩ := ih { c with out := c.out ++ p, holder := some (t, ps) } t rfl
    exact ⟨h1, by rw [h2]; simp⟩

/-- **C109, violated.** On another stream or a file, two threads that write at the same time: undefined, whatever they write. -/
theorem C109_stream_violated (out p q : Str) (ps qs : List Str) (todo : Nat → List Str) (h0 : todo 0 = p :: ps) (h1 : todo 1 = q :: qs) :
    (Raw.mk out (fun _ => none) todo).run 2 [0, 1] = .ub := by
  simp [Raw.run, Raw.step, Raw.busy, h0, h1, Res.bind, List.range_succ]

/-- **C109, violated.** Even if no two calls of `<<` meet, the parts of two messages are mixed. -/
theorem C109_mixed_violated (time1 msg1 time2 msg2 : Str) :
    ∃ ts r, (Raw.mk [] (fun _ => none) (fun t => if t = 0 then streamParts time1 msg1 else if t = 1 then streamParts time2 msg2 else [])).run 2 ts = .ok r ∧
      r.out = time1 ++ time2 ++ msg2 ++ msg1 ++ ['\n', '\n'] ∧ r.todo 0 = [] ∧ r.todo 1 = [] := by
  refine ⟨[0, 0, 1, 1, 1, 1, 0, 0, 1, 1, 0, 0], _, rfl, ?_, rfl, rfl⟩
  show (((((([] ++ time1) ++ time2) ++ msg2) ++ msg1) ++ ['\n']) ++ ['\n']) = _
  simp

/-- **C109.** One thread alone: all parts are written in order. -/
theorem C109_alone (ps : List Str) (n t : Nat) : ∀ (r : Raw), (∀ u, r.inside u = none) → r.todo t = ps →
    ∃ r', r.run n (List.replicate (2 * ps.length) t) = .ok r' ∧ r'.out = r.out ++ ps.flatten ∧ (∀ u, r'.inside u = none) ∧ r'.todo t = [] := by
  induction ps with
  | nil => intro r h1 h2; exact ⟨r, rfl, by simp, h1, h2⟩
  | cons p ps ih =>
    intro r h1 h2
    have hb : ∀ r : Raw, (∀ u, u ≠ t → r.inside u = none) → r.busy n t = false := by
      intro r h
      unfold Raw.busy
      rw [List.any_eq_false]
      intro u _
      by_cases e : u = t
      · simp [e]
      · simp [h u e]
    rw [List.length_cons, show 2 * (ps.length + 1) = 2 * ps.length + 1 + 1 by omega, List.replicate_succ, List.replicate_succ, Raw.run,
      hb r (fun u _ => h1 u)]
    have e1 : r.step false t = .ok { r with inside := (fun u => if u = t then some p else r.inside u), todo := fun u => if u = t then ps else r.todo u } := by
      simp [Raw.step, h1, h2]
    rw [e1]
    simp only [Res.bind]
    rw [Raw.run]
    have e2 : ∀ b, Raw.step { r with inside := (fun u => if u = t then some p else r.inside u), todo := fun u => if u = t then ps else r.todo u } b t =
        .ok ⟨r.out ++ p, fun u => if u = t then none else if u = t then some p else r.inside u, fun u => if u = t then ps else r.todo u⟩ := by
      intro b
      simp [Raw.step]
    rw [e2]
    simp only [Res.bind]
    obtain ⟨r', h3, h4, h5, h6⟩ := ih ⟨r.out ++ p, fun u => if u = t then none else if u = t then some p else r.inside u, fun u => if u = t then ps else r.todo u⟩
      (by intro u; simp only; split <;> simp [h1]) (by simp)
    exact ⟨r', h3, by rw [h4]; simp, h5, h6⟩

/-! ### Files -/

/-- The messages that a file sink gets, with the time of each. -/
def FileSink.all (s : FileSink) (room : Nat) : List (Str × Str) → FileSink
  | [] => s
  | (time, msg) :: ms => (s.handle room time msg).all room ms

/-- **C109.** A file sink whose file is open and takes everything: every message is in the file, in order. -/
theorem C109_file_partial (room : Nat) (ms : List (Str × Str)) : ∀ (s : FileSink), s.good = true → (∀ m ∈ ms, m.1.length + m.2.length < room) →
    (s.all room ms).out = s.out ++ (ms.map fun m => m.1 ++ m.2 ++ ['\n']).flatten ∧ (s.all room ms).good = true := by
  induction ms with
  | nil => intro s h _; exact ⟨by simp [FileSink.all], h⟩
  | cons m ms ih =>
    intro s h hr
    obtain ⟨time, msg⟩ := m
    have hm := hr (time, msg) (by simp)
    simp only at hm
    have e : s.handle room time msg = ⟨true, s.out ++ (time ++ msg ++ ['\n'])⟩ := by
      unfold FileSink.handle
      rw [if_pos h]
      simp only [C109_stream]
      rw [List.take_of_length_le (by simp; omega)]
      simp; omega
    rw [FileSink.all, e]
    obtain ⟨h1, h2⟩ := ih ⟨true, s.out ++ (time ++ msg ++ ['\n'])⟩ rfl (fun m hm => hr m (by simp [hm]))
    exact ⟨by rw [h1]; simp, h2⟩

/-- **C109, violated.** If the file could not be opened, or the disk was full once, all later messages are lost, and nothing tells so. -/
theorem C109_file_violated (room : Nat) (ms : List (Str × Str)) : ∀ (s : FileSink), s.good = false → s.all room ms = s := by
  induction ms with
  | nil => intro s _; rfl
  | cons m ms ih =>
    intro s h
    obtain ⟨time, msg⟩ := m
    have e : s.handle room time msg = s := by unfold FileSink.handle; rw [if_neg (by simp [h])]
    rw [FileSink.all, e, ih s h]

/-! ### Life -/

/-- **C109.** A sink that gets messages only after it was made and before its end: it gets exactly these. -/
theorem C109_life_partial (texts before after : List Str) :
    lifeRun (.none, []) (before.map .message ++ [.makeBase, .makeRest] ++ texts.map .message ++ [.endRest, .endBase] ++ after.map .message) =
      .ok (.none, texts.flatten) := by
  have hnone : ∀ (l : List Str) (s : Str) (os : List LifeOp), lifeRun (.none, s) (l.map .message ++ os) = lifeRun (.none, s) os := by
    intro l s os
    induction l with
    | nil => rfl
    | cons x l ih => exact ih
  have hwhole : ∀ (l : List Str) (s : Str) (os : List LifeOp), lifeRun (.whole, s) (l.map .message ++ os) = lifeRun (.whole, s ++ l.flatten) os := by
    intro l
    induction l with
    | nil => intro s os; simp
    | cons x l ih =>
      intro s os
      have : lifeRun (.whole, s) (((x :: l).map LifeOp.message) ++ os) = lifeRun (.whole, s ++ x) (l.map .message ++ os) := rfl
      rw [this, ih]
      simp
  simp only [List.append_assoc]
  rw [hnone]
  show lifeRun (.whole, []) (texts.map .message ++ _) = _
  rw [hwhole]
  show lifeRun (.none, [] ++ texts.flatten) (after.map .message) = _
  have := hnone after ([] ++ texts.flatten) []
  rw [List.append_nil] at this
  rw [this]
  simp [lifeRun]

/-- **C109, violated.** A message of another thread while the sink is being made or destroyed is undefined: it is in the list of sinks already, or
still. -/
theorem C109_life_violated (text : Str) (s : Str) (os : List LifeOp) :
    lifeRun (.none, s) (.makeBase :: .message text :: os) = .ub ∧ lifeRun (.whole, s) (.endRest :: .message text :: os) = .ub := ⟨rfl, rfl⟩

/-- Two threads, of which the second has to wait. -/
example : ((Con.mk [] none fun t => if t = 0 then [["a".toList, "\n".toList]] else if t = 1 then [["b".toList, "\n".toList]] else []).run
    [0, 0, 1, 0, 1, 0, 1, 1, 1, 1]).out = "a\nb\n".toList := by decide

end Xo.LogOut
