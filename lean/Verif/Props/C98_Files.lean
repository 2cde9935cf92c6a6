import Verif.Model.Files
import Verif.Props.C20_ZmlRoundTrip
import Verif.Props.C23_IniRoundTrip
import Verif.Props.C32_Path
import Verif.Props.C97_Xml

/-!
C98: saving and loading property trees by file name. The format follows from the extension; a tree that was saved is loaded again, through any
history of other calls; calls that fail say so. A save that is interrupted may leave a file that is loaded as a different tree.
-/
namespace Xo.Files
open Xo Xo.Outc

namespace Spec

/-- What a format promises for the trees in `Safe`: they can be written, and whatever files there are, and whatever the file is called, the text
is read as an equal tree without an error. -/
def Keeps (f : Format) (Safe : PropNode → Prop) : Prop := ∀ n, Safe n → ∃ text, f.write n = .ok text ∧
  ∀ fs throws file, ∃ m, f.read fs throws file text = .ok (m, false) ∧ m.eq n = true

/-- The trees that XML texts hold (see C97). -/
def SafeXml (n : PropNode) : Prop := ∃ k c a, n = .mk [] [(k, c)] a ∧ Xml.Spec.Item.NameOk k ∧ Xml.Spec.Kept c

/-- The trees that a file of a type holds. -/
def SafeFor (type : Str) (n : PropNode) : Prop :=
  (type = "xml".toList ∧ SafeXml n) ∨ (type = "ini".toList ∧ Ini.Spec.SafeTree n) ∨ (type = "zml".toList ∧ Zml.Spec.SafeRoot n)

/-- A disk on which nothing is lost. -/
def Sound (disk : Disk) : Prop := ∀ text, disk.stores text = text

/-- No error is recorded. -/
def Clean (ec : Option ErrCode) : Prop := ∀ e, ec = some e → e.error = 0

/-- An error is reported: it is thrown if there is no error code, and recorded otherwise; then the result is `v`. -/
def Reports {α : Type} (r : Out α × Option ErrCode) (ec : Option ErrCode) (v : α) : Prop :=
  match ec with
  | none => r.1 = .err
  | some _ => r.1 = .ok v ∧ ∃ e, r.2 = some e ∧ e.error ≠ 0

/-- What a program does with files. -/
inductive Op where
  | save (n : PropNode) (file : Path) (ec : Option ErrCode)
  | load (file : Path) (ec : Option ErrCode)

/-- The files after a history of calls. -/
def after (formats : Str → Option Format) (disk : Disk) : FS → List Op → FS
  | fs, [] => fs
  | fs, .save n file ec :: ops => after formats disk (saveFile formats disk fs ec n file).2.2 ops
  | fs, .load _ _ :: ops => after formats disk fs ops

/-- The last tree that was saved as `file`, if any. -/
def lastSaved (file : Path) : List Op → Option PropNode
  | [] => none
  | .save n p _ :: ops => match lastSaved file ops with
    | some m => some m
    | none => if p = file then some n else none
  | .load _ _ :: ops => lastSaved file ops

end Spec
open Spec

theorem xml_keeps : Keeps xml SafeXml := by
  rintro n ⟨k, c, a, rfl, hk, hc⟩
  refine ⟨_, rfl, ?_⟩
  intro fs throws file
  refine ⟨(PropNode.mk [] [(k, c)] a).setAccessedRec false, ?_, ?_⟩
  · simp only [xml]
    rw [Xml.C97_round_trip_partial k c a hk hc]
    rfl
  · exact Zml.eq_norm _

theorem ini_keeps : Keeps ini Ini.Spec.SafeTree := by
  intro n hn
  refine ⟨_, rfl, ?_⟩
  intro fs throws file
  obtain ⟨m, h1, h2⟩ := Ini.C23_roundtrip_partial throws hn
  exact ⟨m, by simp only [ini, h1], h2⟩

theorem zml_keeps (depth : Nat) : Keeps (zml depth) Zml.Spec.SafeRoot := by
  intro n hn
  obtain ⟨text, hw, hl⟩ := Zml.write_lex hn
  refine ⟨text, hw, ?_⟩
  intro fs throws file
  obtain ⟨t, h1, m, h2, h3⟩ := Zml.C20_roundtrip_partial ⟨throws, Zml.includeKids (Zml.loadZml fs throws depth) file⟩ hn
  have : t = text := by rw [hw] at h1; cases h1; rfl
  subst this
  exact ⟨m, h2, h3⟩

/-- **C98.** Each of the three types has its format, and this keeps the trees that the type can hold. -/
theorem C98_types (depth : Nat) (type : Str) (n : PropNode) (h : SafeFor type n) :
    ∃ f, builtin depth type = some f ∧ ∃ Safe, Keeps f Safe ∧ Safe n := by
  rcases h with ⟨rfl, h⟩ | ⟨rfl, h⟩ | ⟨rfl, h⟩
  · exact ⟨xml, by unfold builtin; rw [if_pos rfl], _, xml_keeps, h⟩
  · exact ⟨ini, by unfold builtin; rw [if_neg (by decide), if_pos rfl], _, ini_keeps, h⟩
  · exact ⟨zml depth, by unfold builtin; rw [if_neg (by decide), if_neg (by decide), if_pos rfl], _, zml_keeps depth, h⟩

/-- **C98.** The type of a file is the text behind the last dot of its name. -/
theorem C98_extension (base t : Str) (ht : '.' ∉ t) (formats : Str → Option Format) (disk : Disk) (fs : FS) (ec : Option ErrCode) (n : PropNode) :
    (loadFile formats fs ec (base ++ '.' :: t)).1 = (loadType formats fs ec (base ++ '.' :: t) t).1 ∧
    (saveFile formats disk fs ec n (base ++ '.' :: t)).1 = (saveType formats disk fs ec n (base ++ '.' :: t) t).1 ∧
    (saveFile formats disk fs ec n (base ++ '.' :: t)).2.2 = (saveType formats disk fs ec n (base ++ '.' :: t) t).2.2 := by
  have e : Path.extensionNoDot (base ++ '.' :: t) = t := by
    unfold Path.extensionNoDot
    rw [lastDot_at ht]
    simp only []
    rw [show base ++ '.' :: t = (base ++ ['.']) ++ t by simp, show base.length + 1 = (base ++ ['.']).length by simp, List.drop_left]
  unfold loadFile loadType saveFile saveType
  rw [e]
  unfold loadAs saveAs makeSerializer failWith report setErrorOrThrow
  cases formats t with
  | some f => exact ⟨rfl, rfl, rfl⟩
  | none => cases ec <;> exact ⟨rfl, rfl, rfl⟩

theorem saveAs_ok {formats : Str → Option Format} {disk : Disk} {fs : FS} {ec : Option ErrCode} {n : PropNode} {file : Path} {type msg : Str}
    {f : Format} (hf : formats type = some f) (hc : disk.creates file = true) {text : Str} (hw : f.write n = .ok text) :
    saveAs formats disk fs ec n file type msg = (.ok (saved ec), ec, put fs file (disk.stores text)) := by
  simp only [saveAs, makeSerializer, hf, Format.save, hc, if_true, hw]
  rfl

theorem loadAs_ok {formats : Str → Option Format} {fs : FS} {ec : Option ErrCode} {file : Path} {type msg : Str}
    {f : Format} (hf : formats type = some f) {text : Str} (ht : fs file = some text) {m : PropNode}
    (hr : f.read fs ec.isNone file text = .ok (m, false)) : loadAs formats fs ec file type msg = (.ok m, ec) := by
  simp only [loadAs, makeSerializer, hf, Format.load, ht, hr]
  rfl

/-- **C98.** A tree that is saved, with or without an error code that has no error in it, is saved without an error, no other file is changed,
and it is loaded again, without an error, as long as the file is not changed. -/
theorem C98_save_load_partial (formats : Str → Option Format) (disk : Disk) (fs : FS) (ec : Option ErrCode) (n : PropNode) (file : Path) (type : Str)
    (f : Format) (Safe : PropNode → Prop) (hf : formats type = some f) (hk : Keeps f Safe) (hn : Safe n)
    (hd : Sound disk) (hc : disk.creates file = true) (he : Clean ec) :
    ∃ fs', saveType formats disk fs ec n file type = (.ok true, ec, fs') ∧ (∀ p, p ≠ file → fs' p = fs p) ∧
      ∀ (fs'' : FS) (ec' : Option ErrCode), fs'' file = fs' file →
        ∃ m, loadType formats fs'' ec' file type = (.ok m, ec') ∧ m.eq n = true := by
  obtain ⟨text, hw, hr⟩ := hk n hn
  refine ⟨put fs file (disk.stores text), ?_, ?_, ?_⟩
  · rw [saveType, saveAs_ok hf hc hw]
    have : saved ec = true := by
      cases ec with
      | none => rfl
      | some e => simp [saved, ErrCode.good, he e rfl]
    rw [this]
  · intro p hp
    simp [put, hp]
  · intro fs'' ec' h
    obtain ⟨m, h1, h2⟩ := hr fs'' ec'.isNone file
    refine ⟨m, ?_, h2⟩
    have ht : fs'' file = some text := by rw [h]; simp [put, hd text]
    exact loadAs_ok hf ht h1

/-- Saving changes no other file, whatever happens. -/
theorem C98_other_files (formats : Str → Option Format) (disk : Disk) (fs : FS) (ec : Option ErrCode) (n : PropNode) (file : Path) (type msg : Str)
    (p : Path) (hp : p ≠ file) : (saveAs formats disk fs ec n file type msg).2.2 p = fs p := by
  unfold saveAs
  split
  · unfold Format.save
    split
    · split <;> simp [put, hp]
    · rfl
  · rfl
  · rfl
  · rfl
  · rfl

/-- **C98.** After any history of saves and loads of any files, with any error codes, a file gives the tree that was last saved in it. The trees
in the history are such that the type of their file can hold them. -/
theorem C98_history_partial (depth : Nat) (disk : Disk) (hd : Sound disk) (hc : ∀ p, disk.creates p = true) (ops : List Op) (fs : FS)
    (hs : ∀ n p ec, Op.save n p ec ∈ ops → SafeFor (Path.extensionNoDot p) n) (file : Path) (n : PropNode) (h : lastSaved file ops = some n)
    (ec : Option ErrCode) : ∃ m, loadFile (builtin depth) (after (builtin depth) disk fs ops) ec file = (.ok m, ec) ∧ m.eq n = true := by
  have key : ∀ (ops : List Op) (fs : FS), (∀ n p ec, Op.save n p ec ∈ ops → SafeFor (Path.extensionNoDot p) n) →
      (∀ n, lastSaved file ops = some n → SafeFor (Path.extensionNoDot file) n ∧ ∃ f text, builtin depth (Path.extensionNoDot file) = some f ∧
        f.write n = .ok text ∧ after (builtin depth) disk fs ops file = some text) ∧
      (lastSaved file ops = none → after (builtin depth) disk fs ops file = fs file) := by
    intro ops
    induction ops with
    | nil => intro fs _; exact ⟨fun n h => (by cases h), fun _ => rfl⟩
    | cons op ops ih =>
      intro fs hs
      have hs' : ∀ n p ec, Op.save n p ec ∈ ops → SafeFor (Path.extensionNoDot p) n := fun n p ec h => hs n p ec (List.mem_cons_of_mem _ h)
      cases op with
      | load p ec => exact ih fs hs'
      | save n' p ec =>
        obtain ⟨h1, h2⟩ := ih (saveFile (builtin depth) disk fs ec n' p).2.2 hs'
        cases hl : lastSaved file ops with
        | some m =>
          refine ⟨?_, ?_⟩
          · intro n hn
            simp only [lastSaved, hl, Option.some.injEq] at hn
            subst hn
            exact h1 m hl
          · intro hn
            simp [lastSaved, hl] at hn
        | none =>
          have h3 := h2 hl
          by_cases hp : p = file
          · subst hp
            refine ⟨?_, fun hn => by simp [lastSaved, hl] at hn⟩
            intro n hn
            simp only [lastSaved, hl, if_true, Option.some.injEq] at hn
            subst hn
            have hsafe := hs n' p ec (List.mem_cons_self ..)
            obtain ⟨f, hf, Safe, hk, hn⟩ := C98_types depth _ n' hsafe
            obtain ⟨text, hw, -⟩ := hk n' hn
            refine ⟨hsafe, f, text, hf, hw, ?_⟩
            show after (builtin depth) disk (saveFile (builtin depth) disk fs ec n' p).2.2 ops p = some text
            rw [h3, saveFile, saveAs_ok hf (hc p) hw]
            simp [put, hd text]
          · refine ⟨fun n hn => by simp [lastSaved, hl, hp] at hn, fun _ => ?_⟩
            show after (builtin depth) disk (saveFile (builtin depth) disk fs ec n' p).2.2 ops file = fs file
            rw [h3]
            exact C98_other_files _ _ _ _ _ _ _ _ _ (Ne.symm hp)
  obtain ⟨hsafe, f, text, hf, hw, ht⟩ := (key ops fs hs).1 n h
  obtain ⟨f', hf', Safe, hk, hn⟩ := C98_types depth _ n hsafe
  rw [hf] at hf'
  cases hf'
  obtain ⟨text', hw', hr⟩ := hk n hn
  rw [hw] at hw'
  cases hw'
  obtain ⟨m, h1, h2⟩ := hr (after (builtin depth) disk fs ops) ec.isNone file
  exact ⟨m, loadAs_ok hf ht h1, h2⟩

/-! ### Errors -/

theorem failWith_reports {α : Type} (ec : Option ErrCode) (msg : Str) (v : α) : Reports (failWith ec msg v) ec v := by
  cases ec with
  | none => rfl
  | some e => exact ⟨rfl, _, rfl, by simp [ErrCode.set]⟩

/-- **C98.** A type that no format belongs to, a file that cannot be opened and a file that cannot be created are reported as errors. Loading
gives an empty tree then, saving reports failure and changes no file. -/
theorem C98_errors (formats : Str → Option Format) (disk : Disk) (fs : FS) (ec : Option ErrCode) (n : PropNode) (file : Path) (type : Str)
    (f : Format) :
    (formats type = none → Reports (loadType formats fs ec file type) ec .empty) ∧
    (formats type = none → Reports ((saveType formats disk fs ec n file type).1, (saveType formats disk fs ec n file type).2.1) ec false) ∧
    (formats type = some f → fs file = none → Reports (loadType formats fs ec file type) ec .empty) ∧
    (formats type = some f → disk.creates file = false →
      Reports ((saveType formats disk fs ec n file type).1, (saveType formats disk fs ec n file type).2.1) ec false) ∧
    (formats type = none ∨ disk.creates file = false → (saveType formats disk fs ec n file type).2.2 = fs) := by
  refine ⟨?_, ?_, ?_, ?_, ?_⟩
  · intro h
    unfold loadType loadAs makeSerializer
    rw [h]
    cases ec with
    | none => rfl
    | some e => exact ⟨rfl, _, rfl, by simp [ErrCode.set]⟩
  · intro h
    unfold saveType saveAs makeSerializer
    rw [h]
    cases ec with
    | none => rfl
    | some e => exact ⟨rfl, _, rfl, by simp [ErrCode.set]⟩
  · intro h hf
    unfold loadType loadAs makeSerializer
    rw [h]
    simp only [Format.load, hf]
    exact failWith_reports _ _ _
  · intro h hf
    unfold saveType saveAs makeSerializer
    rw [h]
    simp only [Format.save, hf, Bool.false_eq_true, if_false]
    cases ec with
    | none => rfl
    | some e => exact ⟨rfl, _, rfl, by simp [ErrCode.set]⟩
  · intro h
    unfold saveType saveAs makeSerializer
    cases ht : formats type with
    | none => cases ec <;> rfl
    | some f =>
      rw [ht] at h
      have hc : disk.creates file = false := by
        rcases h with h | h
        · cases h
        · exact h
      simp only [Format.save, hc, Bool.false_eq_true, if_false]

/-- **C98.** What the recorded errors say: for an unknown type the type or the file, and otherwise the file. -/
theorem C98_messages (formats : Str → Option Format) (disk : Disk) (fs : FS) (e : ErrCode) (n : PropNode) (file : Path) (type : Str) (f : Format) :
    (formats type = none → (loadType formats fs (some e) file type).2 = some ⟨-1, "Unknown file format: ".toList ++ type⟩ ∧
      (saveType formats disk fs (some e) n file type).2.1 = some ⟨-1, "Unknown file format: ".toList ++ type⟩) ∧
    (formats (Path.extensionNoDot file) = none →
      (loadFile formats fs (some e) file).2 = some ⟨-1, "Unsupported file format for ".toList ++ file⟩ ∧
      (saveFile formats disk fs (some e) n file).2.1 = some ⟨-1, "Could not deduce file format for ".toList ++ file⟩) ∧
    (formats type = some f → fs file = none → (loadType formats fs (some e) file type).2 = some ⟨-1, "Could not open ".toList ++ file⟩) ∧
    (formats type = some f → disk.creates file = false →
      (saveType formats disk fs (some e) n file type).2.1 = some ⟨-1, "Could not create ".toList ++ file⟩) := by
  refine ⟨fun h => ⟨?_, ?_⟩, fun h => ⟨?_, ?_⟩, fun h h2 => ?_, fun h h2 => ?_⟩
  · unfold loadType loadAs makeSerializer; rw [h]; rfl
  · unfold saveType saveAs makeSerializer; rw [h]; rfl
  · unfold loadFile loadAs makeSerializer; rw [h]; rfl
  · unfold saveFile saveAs makeSerializer; rw [h]; rfl
  · unfold loadType loadAs makeSerializer; rw [h]; simp only [Format.load, h2]; rfl
  · unfold saveType saveAs makeSerializer; rw [h]; simp only [Format.save, h2]; rfl

/-- Which types are supported: exactly three, in lower case. -/
theorem C98_supported (depth : Nat) (type : Str) :
    (builtin depth type).isSome = true ↔ type = "xml".toList ∨ type = "ini".toList ∨ type = "zml".toList := by
  unfold builtin
  split
  · simp [*]
  · split
    · simp [*]
    · split
      · simp [*]
      · rename_i h1 h2 h3
        exact ⟨fun h => (by cases h), fun h => (by rcases h with h | h | h <;> contradiction)⟩

/-- **C98 is violated by old errors**: a save that succeeds reports failure if the error code already had an error. -/
theorem C98_stale_violated (formats : Str → Option Format) (disk : Disk) (fs : FS) (e : ErrCode) (n : PropNode) (file : Path) (type : Str)
    (f : Format) (Safe : PropNode → Prop) (hf : formats type = some f) (hk : Keeps f Safe) (hn : Safe n)
    (hd : Sound disk) (hc : disk.creates file = true) (he : e.error ≠ 0) :
    ∃ fs', saveType formats disk fs (some e) n file type = (.ok false, some e, fs') ∧
      ∃ m, loadType formats fs' none file type = (.ok m, none) ∧ m.eq n = true := by
  obtain ⟨text, hw, hr⟩ := hk n hn
  refine ⟨put fs file (disk.stores text), ?_, ?_⟩
  · rw [saveType, saveAs_ok hf hc hw]
    have : saved (some e) = false := by simp [saved, ErrCode.good, he]
    rw [this]
  · obtain ⟨m, h1, h2⟩ := hr (put fs file (disk.stores text)) true file
    exact ⟨m, loadAs_ok hf (by simp [put, hd text]) h1, h2⟩

/-- **C98 is violated by a disk that is full**: what was not stored is lost, but the save reports success. -/
theorem C98_full_violated (formats : Str → Option Format) (disk : Disk) (fs : FS) (ec : Option ErrCode) (n : PropNode) (file : Path) (type : Str)
    (f : Format) (text : Str) (hf : formats type = some f) (hw : f.write n = .ok text) (hd : ∀ t, disk.stores t = []) (hc : disk.creates file = true)
    (he : Clean ec) :
    (saveType formats disk fs ec n file type).1 = .ok true ∧ (saveType formats disk fs ec n file type).2.2 file = some [] := by
  rw [saveType, saveAs_ok hf hc hw]
  have : saved ec = true := by
    cases ec with
    | none => rfl
    | some e => simp [saved, ErrCode.good, he e rfl]
  exact ⟨by rw [this], by simp [put, hd]⟩

/-- **C98 is violated by trees that cannot be written**: the file that was there before is lost. A tree with a child that has a value but no key
cannot be written as ZML if another child has a key. -/
theorem C98_failed_save_violated (depth : Nat) (disk : Disk) (fs : FS) (ec : Option ErrCode) (file : Path) (k v w : Str) (a b c : Bool)
    (hk : k ≠ []) (hc : disk.creates file = true) :
    let n : PropNode := .mk [] [(k, .mk v [] a), ([], .mk w [] b)] c
    (saveType (builtin depth) disk fs ec n file "zml".toList).1 = .err ∧
    (saveType (builtin depth) disk fs ec n file "zml".toList).2.2 file = some (disk.partly n) := by
  intro n
  have hf : builtin depth "zml".toList = some (zml depth) := by unfold builtin; rw [if_neg (by decide), if_neg (by decide), if_pos rfl]
  have hk' : k.isEmpty = false := by cases k with
    | nil => exact absurd rfl hk
    | cons => rfl
  have hw : (zml depth).write n = .err := by
    simp [zml, n, Zml.write, Zml.writeNode, Zml.writeNodeKids, Zml.writeKvp, PropNode.value, PropNode.kids, hk', Res.bind]
  simp only [saveType, saveAs, makeSerializer, hf, Format.save, hc, if_true, hw]
  exact ⟨rfl, by simp [put]⟩

/-! ### Interrupted saves -/

/-- **C98 (XML).** If saving a tree as XML was interrupted after some of its text, loading the file throws, or gives the whole tree. -/
theorem C98_interrupted_xml_partial (depth : Nat) (fs : FS) (ec : Option ErrCode) (n : PropNode) (file : Path) (hn : SafeXml n)
    (p : Str) (hp : p <+: Xml.write n) (hne : p ≠ []) (hfile : fs file = some p) :
    loadType (builtin depth) fs ec file "xml".toList = (.err, ec) ∨
    ∃ m, loadType (builtin depth) fs ec file "xml".toList = (.ok m, ec) ∧ m.eq n = true := by
  obtain ⟨k, c, a, rfl, hk, hc⟩ := hn
  have hf : builtin depth "xml".toList = some xml := by unfold builtin; rw [if_pos rfl]
  rcases Xml.C97_cut k c a hk hc p hp with h | h | h
  · exact absurd h hne
  · left
    simp only [loadType, loadAs, makeSerializer, hf, Format.load, hfile, xml, h]
    rfl
  · right
    refine ⟨_, loadAs_ok hf hfile ?_, Zml.eq_norm _⟩
    simp only [xml, h]
    rfl

/-- **C98 is violated by interrupted saves, already if nothing was written**: an empty XML file is loaded as an empty tree. -/
theorem C98_interrupted_empty_violated (depth : Nat) (fs : FS) (ec : Option ErrCode) (file : Path) (h : fs file = some []) :
    loadType (builtin depth) fs ec file "xml".toList = (.ok .empty, ec) := by
  have hf : builtin depth "xml".toList = some xml := by unfold builtin; rw [if_pos rfl]
  exact loadAs_ok hf h rfl

theorem writeNodeKids_append (level : Nat) (arr : Bool) (xs ys : PropNode.Kids) (s t : Str) (hx : Zml.writeNodeKids level arr xs = .ok s)
    (hy : Zml.writeNodeKids level arr (xs ++ ys) = .ok t) : s <+: t := by
  induction xs generalizing s t with
  | nil => simp only [Zml.writeNodeKids, Res.ok.injEq] at hx; subst hx; exact List.nil_prefix
  | cons x xs ih =>
    obtain ⟨k, c⟩ := x
    rw [List.cons_append] at hy
    rw [Zml.writeNodeKids] at hx hy
    cases h1 : Zml.writeNode k level arr c with
    | ok a =>
      rw [h1] at hx hy
      simp only [Res.bind] at hx hy
      cases h2 : Zml.writeNodeKids level arr xs with
      | ok s' =>
        cases h3 : Zml.writeNodeKids level arr (xs ++ ys) with
        | ok t' =>
          rw [h2] at hx; rw [h3] at hy
          simp only [Res.ok.injEq] at hx hy
          subst hx hy
          exact (List.prefix_append_right_inj _).2 (ih s' t' h2 h3)
        | err => rw [h3] at hy; cases hy
        | ub => rw [h3] at hy; cases hy
      | err => rw [h2] at hx; cases hx
      | ub => rw [h2] at hx; cases hx
    | err => rw [h1] at hx; cases hx
    | ub => rw [h1] at hx; cases hx

/-- **C98 is violated by interrupted saves (ZML)**: there is a point at which an interrupted save leaves a file that is loaded, without an error,
as the tree with only the first children. -/
theorem C98_interrupted_zml_violated (depth : Nat) (ks ks' : PropNode.Kids) (a : Bool) (hne : ks ≠ []) (hn : Zml.Spec.SafeRoot (.mk [] (ks ++ ks') a)) :
    ∃ text p, Zml.write (.mk [] (ks ++ ks') a) = .ok text ∧ p <+: text ∧ ∀ (fs : FS) (ec : Option ErrCode) (file : Path), fs file = some p →
      ∃ m, loadType (builtin depth) fs ec file "zml".toList = (.ok m, ec) ∧ m.eq (.mk [] ks a) = true := by
  have hks : Zml.Spec.SafeKids false ks := by
    have := hn.2
    simp only [PropNode.kids] at this
    clear hne hn
    induction ks with
    | nil => rw [Zml.Spec.SafeKids]; trivial
    | cons x xs ih =>
      obtain ⟨k, c⟩ := x
      rw [List.cons_append, Zml.Spec.SafeKids] at this
      rw [Zml.Spec.SafeKids]
      exact ⟨this.1, ih this.2⟩
  have hs : Zml.Spec.SafeRoot (.mk [] ks a) := ⟨rfl, hks⟩
  obtain ⟨text, h1, -⟩ := Zml.write_lex hn
  obtain ⟨p, h2, h3⟩ := zml_keeps depth _ hs
  refine ⟨text, p, h1, ?_, ?_⟩
  · obtain ⟨⟨k, c⟩, xs, rfl⟩ : ∃ x xs, ks = x :: xs := by
      cases ks with
      | nil => exact absurd rfl hne
      | cons x xs => exact ⟨x, xs, rfl⟩
    have hk : k.isEmpty = false := by
      rw [Zml.Spec.SafeKids] at hks
      obtain ⟨v, ks, b⟩ := c
      have := hks.1
      rw [Zml.Spec.SafeItem] at this
      obtain ⟨-, ⟨c, hc, -⟩, -⟩ := this.1.1
      cases k with
      | nil => cases hc
      | cons => rfl
    have h2 : Zml.write (.mk [] ((k, c) :: xs) a) = .ok p := h2
    simp only [Zml.write, PropNode.value, PropNode.kids, List.isEmpty_cons, List.cons_append, Bool.and_false, Bool.false_eq_true, if_false,
      Zml.writeNode, Zml.writeKvp, List.isEmpty_nil, List.all_cons, hk, Bool.false_and, Res.bind] at h1 h2
    cases h4 : Zml.writeNodeKids 1 false ((k, c) :: xs) with
    | ok s =>
      cases h5 : Zml.writeNodeKids 1 false ((k, c) :: (xs ++ ks')) with
      | ok t =>
        have := writeNodeKids_append 1 false ((k, c) :: xs) ks' s t h4 h5
        simp [h4, h5] at h1 h2
        subst h1 h2
        exact this
      | err => simp [h5] at h1
      | ub => simp [h5] at h1
    | err => simp [h4] at h2
    | ub => simp [h4] at h2
  · intro fs ec file hfile
    have hf : builtin depth "zml".toList = some (zml depth) := by unfold builtin; rw [if_neg (by decide), if_neg (by decide), if_pos rfl]
    obtain ⟨m, h4, h5⟩ := h3 fs ec.isNone file
    exact ⟨m, loadAs_ok hf hfile h4, h5⟩

theorem ini_write_append (xs ys : PropNode.Kids) : Ini.write (xs ++ ys) = Ini.write xs ++ Ini.write ys := by
  induction xs with
  | nil => rfl
  | cons x xs ih => obtain ⟨k, c⟩ := x; simp only [List.cons_append, Ini.write, ih, List.append_assoc]

/-- **C98 is violated by interrupted saves (INI)** in the same way. -/
theorem C98_interrupted_ini_violated (depth : Nat) (ks ks' : PropNode.Kids) (a : Bool) (hn : Ini.Spec.SafeTree (.mk [] ks a)) :
    ∃ p, p <+: Ini.write (ks ++ ks') ∧ ∀ (fs : FS) (ec : Option ErrCode) (file : Path), fs file = some p →
      ∃ m, loadType (builtin depth) fs ec file "ini".toList = (.ok m, ec) ∧ m.eq (.mk [] ks a) = true := by
  refine ⟨Ini.write ks, by rw [ini_write_append]; exact List.prefix_append _ _, ?_⟩
  intro fs ec file hfile
  obtain ⟨p, h2, h3⟩ := ini_keeps _ hn
  have : p = Ini.write ks := by cases h2; rfl
  subst this
  have hf : builtin depth "ini".toList = some ini := by unfold builtin; rw [if_neg (by decide), if_pos rfl]
  obtain ⟨m, h4, h5⟩ := h3 fs ec.isNone file
  exact ⟨m, loadAs_ok hf hfile h4, h5⟩

/-- **C98 is violated by directories with a dot**: a name without an extension of its own is not taken as one of no type. -/
theorem C98_directory_violated (d t f : Str) (ht : '.' ∉ t) (hf : '.' ∉ f) : Path.extensionNoDot (d ++ '.' :: t ++ '/' :: f) = t ++ '/' :: f := by
  have h : '.' ∉ t ++ '/' :: f := by
    simp only [List.mem_append, List.mem_cons, not_or]
    exact ⟨ht, by decide, hf⟩
  unfold Path.extensionNoDot
  rw [List.append_assoc, List.cons_append, lastDot_at h]
  simp only []
  rw [show d ++ '.' :: (t ++ '/' :: f) = (d ++ ['.']) ++ (t ++ '/' :: f) by simp, show d.length + 1 = (d ++ ['.']).length by simp, List.drop_left]


/-! ### Examples -/

/-- A tree that ZML and INI files hold. -/
def settings : PropNode := .mk [] [("a".toList, .leaf "1".toList), ("b".toList, .leaf "2".toList)] false

theorem settings_zml : Zml.Spec.SafeRoot settings := by
  refine ⟨rfl, ?_⟩
  have e : Zml.Spec.SafeKids (([] : PropNode.Kids).all fun p => p.1.isEmpty) [] := by rw [Zml.Spec.SafeKids]; trivial
  simp only [settings, PropNode.kids, PropNode.leaf, Zml.Spec.SafeKids, Zml.Spec.SafeItem, and_true]
  unfold Zml.Spec.SafeKey Zml.Spec.SafeValue Zml.Spec.SafeText Zml.Spec.Quoted
  have hx : ∀ (d : Char) (x y : Str), [d] ≠ x ++ '$' :: '{' :: y := by
    intro d x y h
    have := congrArg List.length h
    simp at this
    omega
  refine ⟨⟨⟨⟨by decide, Or.inr ⟨by decide, by decide⟩, by decide, by decide, by decide⟩, ⟨'a', rfl, by decide, by decide, by decide⟩, by decide, by decide, by decide, by decide⟩, ⟨by decide, Or.inr ⟨by decide, by decide⟩, by decide, by decide, by decide⟩, by decide, by decide, hx _, by decide, by decide⟩,
    ⟨⟨by decide, Or.inr ⟨by decide, by decide⟩, by decide, by decide, by decide⟩, ⟨'b', rfl, by decide, by decide, by decide⟩, by decide, by decide, by decide, by decide⟩, ⟨by decide, Or.inr ⟨by decide, by decide⟩, by decide, by decide, by decide⟩, by decide, by decide, hx _, by decide, by decide⟩

theorem settings_ini : Ini.Spec.SafeTree settings := by
  have o1 : Ini.Spec.OneLine ['a'] := by unfold Ini.Spec.OneLine; decide
  have o2 : Ini.Spec.OneLine ['1'] := by unfold Ini.Spec.OneLine; decide
  have o3 : Ini.Spec.OneLine ['b'] := by unfold Ini.Spec.OneLine; decide
  have o4 : Ini.Spec.OneLine ['2'] := by unfold Ini.Spec.OneLine; decide
  have t : ∀ d : Char, d ∉ [' ', '\t', '\r', '\n', Char.ofNat 12, Char.ofNat 11] → Ini.Spec.Tight [d] :=
    fun d h => ⟨fun c hc => by cases hc; exact h, fun c hc => by cases hc; exact h⟩
  have t1 := t 'a' (by decide)
  have t2 := t '1' (by decide)
  have t3 := t 'b' (by decide)
  have t4 := t '2' (by decide)
  refine ⟨rfl, settings.kids, [], rfl, ⟨by decide, ?_⟩, ?_, by simp⟩
  · intro k c h
    simp only [settings, PropNode.kids, List.mem_cons, Prod.mk.injEq, List.not_mem_nil, or_false] at h
    rcases h with ⟨rfl, rfl⟩ | ⟨rfl, rfl⟩
    · exact ⟨rfl, ⟨⟨o1, t1⟩, ⟨o2, t2⟩, by decide, by decide, by decide, by decide⟩⟩
    · exact ⟨rfl, ⟨⟨o3, t3⟩, ⟨o4, t4⟩, by decide, by decide, by decide, by decide⟩⟩
  · intro k c h
    simp only [settings, PropNode.kids, List.mem_cons, Prod.mk.injEq, List.not_mem_nil, or_false] at h
    rcases h with ⟨rfl, rfl⟩ | ⟨rfl, rfl⟩ <;> decide

/-- Three files of three types, two of them saved twice. -/
def session : List Op :=
  [.save settings "a.zml".toList none, .save (.mk [] [("body".toList, Xml.exampleTree)] true) "b.xml".toList none, .load "a.zml".toList none,
   .save .empty "a.zml".toList none, .save settings "c.ini".toList (some ⟨-1, []⟩), .save settings "a.zml".toList (some ⟨0, []⟩)]

theorem session_safe : ∀ n p ec, Op.save n p ec ∈ session → SafeFor (Path.extensionNoDot p) n := by
  intro n p ec h
  simp only [session, List.mem_cons, Op.save.injEq, reduceCtorEq, false_or, List.not_mem_nil, or_false] at h
  rcases h with ⟨rfl, rfl, -⟩ | ⟨rfl, rfl, -⟩ | ⟨rfl, rfl, -⟩ | ⟨rfl, rfl, -⟩ | ⟨rfl, rfl, -⟩
  · exact Or.inr (Or.inr ⟨by decide +kernel, settings_zml⟩)
  · exact Or.inl ⟨by decide +kernel, _, _, _, rfl, Xml.nameOk_of _ (by decide +kernel), Xml.exampleTree_kept⟩
  · exact Or.inr (Or.inr ⟨by decide +kernel, rfl, by rw [PropNode.empty, PropNode.kids, Zml.Spec.SafeKids]; trivial⟩)
  · exact Or.inr (Or.inl ⟨by decide +kernel, settings_ini⟩)
  · exact Or.inr (Or.inr ⟨by decide +kernel, settings_zml⟩)

example (disk : Disk) (hd : Sound disk) (hc : ∀ p, disk.creates p = true) :
    (∃ m, loadFile (builtin 9) (after (builtin 9) disk (fun _ => none) session) none "a.zml".toList = (.ok m, none) ∧ m.eq settings = true) ∧
    (∃ m, loadFile (builtin 9) (after (builtin 9) disk (fun _ => none) session) none "b.xml".toList = (.ok m, none) ∧
      m.eq (.mk [] [("body".toList, Xml.exampleTree)] true) = true) :=
  ⟨C98_history_partial 9 disk hd hc session _ session_safe _ _ (by simp [session, lastSaved]) none,
   C98_history_partial 9 disk hd hc session _ session_safe _ _ (by simp [session, lastSaved]) none⟩

example (ks : PropNode.Kids) (h : settings.kids = ks) : ∃ x y, ks = x ++ y ∧ x ≠ [] ∧ Zml.Spec.SafeRoot (.mk [] (x ++ y) false) := by
  subst h
  exact ⟨[("a".toList, .leaf "1".toList)], [("b".toList, .leaf "2".toList)], rfl, by simp, settings_zml⟩

end Xo.Files
