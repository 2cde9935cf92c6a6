import Verif.Model.Xml
import Verif.Model.Ini
import Verif.Model.Include
import Verif.Model.Outcome

/-!
Model of saving and loading property trees by file name (/repo/xo/serialization/serialize.cpp:11-88,
/repo/xo/serialization/prop_node_serializer.cpp:22-49). A file is identified by the text of its path: two texts that name the same file are
not known to do so. The serializers themselves are those of C20, C23 and C97.
-/
namespace Xo.Files
open Xo Xo.Outc

/-- The files that can be opened, with their text. -/
abbrev FS := Path → Option Str

/-- A `prop_node_serializer`: `write_stream`, and `read_stream` for the text of a file, given all files, whether there is no `error_code`, and
the name of the file. The result of reading is the tree and whether an error was reported to the `error_code`. -/
structure Format where
  write : PropNode → Res Str
  read : FS → Bool → Path → Str → Out (PropNode × Bool)

/-- `prop_node_serializer_xml`; parse errors are thrown in any case. -/
def xml : Format := ⟨fun n => .ok (Xml.write n), fun _ _ _ text => (Xml.read .empty text).bind fun n => .ok (n, false)⟩

/-- `prop_node_serializer_ini`. -/
def ini : Format := ⟨fun n => .ok (Ini.write n.kids), fun _ throws _ text => match Ini.read throws text with
  | .ok r => .ok r
  | .err => .err
  | .ub => .ub⟩

/-- `prop_node_serializer_zml`; `depth` bounds the nesting of included files, as in `Zml.loadZml`. -/
def zml (depth : Nat) : Format := ⟨Zml.write, fun fs throws file text =>
  Zml.parse ⟨throws, Zml.includeKids (Zml.loadZml fs throws depth) file⟩ text⟩

/-- `get_serializer_factory` (serialize.cpp:11-19) without types registered by the program. `try_create` gives `nullptr` for other texts (C33). -/
def builtin (depth : Nat) (type : Str) : Option Format :=
  if type = "xml".toList then some xml else if type = "ini".toList then some ini else if type = "zml".toList then some (zml depth) else none

/-- `set_error_or_throw`, without the log. -/
def report (ec : Option ErrCode) (msg : Str) : Out PUnit × Option ErrCode :=
  match setErrorOrThrow ⟨ec, []⟩ msg with
  | (.returns u, w) => (.ok u, w.ec)
  | (.throws _, w) => (.err, w.ec)

/-- `set_error_or_throw( ec, msg ), v`. -/
def failWith {α : Type} (ec : Option ErrCode) (msg : Str) (v : α) : Out α × Option ErrCode :=
  ((report ec msg).1.bind fun _ => .ok v, (report ec msg).2)

/-- `make_serializer` (serialize.cpp:21-44): `none` is `nullptr`. -/
def makeSerializer (formats : Str → Option Format) (type : Str) (ec : Option ErrCode) : Out (Option Format) × Option ErrCode :=
  match formats type with
  | some f => (.ok (some f), ec)
  | none => failWith ec ("Unsupported file format: ".toList ++ type) none

/-- `prop_node_serializer::load_file` (prop_node_serializer.cpp:22-35). The messages of errors inside the text are not represented. -/
def Format.load (f : Format) (fs : FS) (ec : Option ErrCode) (file : Path) : Out PropNode × Option ErrCode :=
  match fs file with
  | some text => match f.read fs ec.isNone file text with
    | .ok (n, bad) => (.ok n, if bad then ec.map (·.set (-1) []) else ec)
    | .err => (.err, ec)
    | .ub => (.ub, ec)
    | .div => (.div, ec)
  | none => failWith ec ("Could not open ".toList ++ file) .empty

/-- `load_file( filename, file_type, ec )` (serialize.cpp:54-60); `msg` is the text of the second error. -/
def loadAs (formats : Str → Option Format) (fs : FS) (ec : Option ErrCode) (file : Path) (type msg : Str) : Out PropNode × Option ErrCode :=
  match makeSerializer formats type ec with
  | (.ok (some f), ec) => f.load fs ec file
  | (.ok none, ec) => failWith ec msg .empty
  | (.err, ec) => (.err, ec)
  | (.ub, ec) => (.ub, ec)
  | (.div, ec) => (.div, ec)

/-- `load_file( filename, file_type, ec )` (serialize.cpp:54-60). -/
def loadType (formats : Str → Option Format) (fs : FS) (ec : Option ErrCode) (file : Path) (type : Str) : Out PropNode × Option ErrCode :=
  loadAs formats fs ec file type ("Unknown file format: ".toList ++ type)

/-- `load_file( filename, ec )` (serialize.cpp:46-52). -/
def loadFile (formats : Str → Option Format) (fs : FS) (ec : Option ErrCode) (file : Path) : Out PropNode × Option ErrCode :=
  loadAs formats fs ec file (Path.extensionNoDot file) ("Unsupported file format for ".toList ++ file)

/-- What the file system does: which files can be created, how much of a text that is written arrives in the file, and how much of it has
arrived when the writer throws. -/
structure Disk where
  creates : Path → Bool
  stores : Str → Str
  partly : PropNode → Str

/-- The file system with one file replaced. -/
def put (fs : FS) (file : Path) (text : Str) : FS := fun p => if p = file then some text else fs p

/-- `prop_node_serializer::save_file` (prop_node_serializer.cpp:37-49). The state of the stream is not looked at after writing. -/
def Format.save (f : Format) (disk : Disk) (fs : FS) (ec : Option ErrCode) (n : PropNode) (file : Path) : Out PUnit × Option ErrCode × FS :=
  if disk.creates file then
    match f.write n with
    | .ok text => (.ok ⟨⟩, ec, put fs file (disk.stores text))
    | .err => (.err, ec, put fs file (disk.partly n))
    | .ub => (.ub, ec, fs)
  else let r := failWith ec ("Could not create ".toList ++ file) ⟨⟩
    (r.1, r.2, fs)

/-- `ec ? ec->good() : true` (serialize.cpp:67, 75). -/
def saved (ec : Option ErrCode) : Bool := match ec with
  | some e => e.good
  | none => true

/-- `save_file( pn, filename, file_type, ec )` (serialize.cpp:70-76); `msg` is the text of the second error. -/
def saveAs (formats : Str → Option Format) (disk : Disk) (fs : FS) (ec : Option ErrCode) (n : PropNode) (file : Path) (type msg : Str) :
    Out Bool × Option ErrCode × FS :=
  match makeSerializer formats type ec with
  | (.ok (some f), ec) =>
    let r := f.save disk fs ec n file
    (r.1.bind fun _ => .ok (saved r.2.1), r.2.1, r.2.2)
  | (.ok none, ec) =>
    let r := failWith ec msg ()
    (r.1.bind fun _ => .ok (saved r.2), r.2, fs)
  | (.err, ec) => (.err, ec, fs)
  | (.ub, ec) => (.ub, ec, fs)
  | (.div, ec) => (.div, ec, fs)

/-- `save_file( pn, filename, file_type, ec )` (serialize.cpp:70-76). -/
def saveType (formats : Str → Option Format) (disk : Disk) (fs : FS) (ec : Option ErrCode) (n : PropNode) (file : Path) (type : Str) :
    Out Bool × Option ErrCode × FS :=
  saveAs formats disk fs ec n file type ("Unknown file format: ".toList ++ type)

/-- `save_file( pn, filename, ec )` (serialize.cpp:62-68). -/
def saveFile (formats : Str → Option Format) (disk : Disk) (fs : FS) (ec : Option ErrCode) (n : PropNode) (file : Path) :
    Out Bool × Option ErrCode × FS :=
  saveAs formats disk fs ec n file (Path.extensionNoDot file) ("Could not deduce file format for ".toList ++ file)

end Xo.Files
