import Verif.Model.Settings
import Verif.Model.Version

/-!
Model of settings on disk: the constructor, `load`, `save` and `reset` of /repo/xo/system/settings.{h,cpp}, with what
remains of the object when they throw. A file holds a tree (what its text says is the subject of C20 and C98); whether
a file can be written is a parameter. Not modelled: log messages, directories, access flags.
-/
namespace Xo
namespace SetDisk
open PropNode Settings

/-- The members that never change: `schema_`, `current_version_`, and the conversions (settings.h:48-52). -/
structure Cfg where
  env : Env
  schema : PropNode
  current : Version

/-- The members that change: `data_`, `data_file_`, `data_version_` (settings.h:47-51). -/
structure Obj where
  data : PropNode
  file : Str
  fileVersion : Version

/-- The version of a default constructed object (version.h:10). -/
def noVersion : Version := ⟨0, 0, 0, 0, []⟩

/-- Files: `none` when there is no file, `some none` when it cannot be read (serialize.cpp:46-52), otherwise its tree;
and which files can be written (serialize.cpp:62-68). -/
structure Disk where
  files : Str → Option (Option PropNode)
  canWrite : Str → Bool

/-- A file after it was written. -/
def Disk.write (d : Disk) (name : Str) (t : PropNode) : Disk :=
  { d with files := fun n => if n = name then some (some t) else d.files n }

/-- `try_set` (settings.cpp:29-91) with the data that is left, and whether it returned: it only throws before it
changes anything. -/
def setStep (cfg : Cfg) (data : PropNode) (id : Str) (v : PropNode) : PropNode × Bool :=
  match trySet cfg.env cfg.schema data id v with
  | .ok r => (r.2, true)
  | _ => (data, false)

mutual
/-- `set_recursive` (settings.cpp:93-100). -/
def setRec (cfg : Cfg) : PropNode → Str → PropNode → PropNode × Bool
  | .mk v ks a, id, data =>
    if (tryFind cfg.schema id).isSome then setStep cfg data id (.mk v ks a) else setRecKids cfg ks id data
/-- The loop of `set_recursive` (settings.cpp:98-99). -/
def setRecKids (cfg : Cfg) : Kids → Str → PropNode → PropNode × Bool
  | [], _, data => (data, true)
  | (k, c) :: ks, id, data =>
    let r := setRec cfg c (id ++ '.' :: k) data
    if r.2 then setRecKids cfg ks id r.1 else r
end

/-- The loop of `load` over the contents of the file (settings.cpp:112-117). -/
def loadKids (cfg : Cfg) : Kids → Obj → Obj × Bool
  | [], o => (o, true)
  | (k, c) :: ks, o =>
    if k = "version".toList then
      let r := Version.fromStr c.value noVersion
      if r.1 then loadKids cfg ks { o with fileVersion := r.2 } else (o, false)
    else
      let r := setRec cfg c k o.data
      if r.2 then loadKids cfg ks { o with data := r.1 } else ({ o with data := r.1 }, false)

/-- `reset` (settings.cpp:142-145). -/
def reset (o : Obj) : Obj := { o with data := .empty }

/-- `if ( !filename.empty() ) data_file_ = filename` (settings.cpp:104-105, 131-132). -/
def rename (name : Str) (o : Obj) : Obj := if name = [] then o else { o with file := name }

/-- `if ( !current_version().empty() ) data_.set( "version", current_version() )` (settings.cpp:134-135). -/
def stamp (cfg : Cfg) (o : Obj) : Obj :=
  if cfg.current.empty then o else { o with data := o.data.set "version".toList (leaf cfg.current.toStr) }

/-- `save` (settings.cpp:129-140): the object, the disk, and whether it returned. -/
def save (cfg : Cfg) (name : Str) (o : Obj) (d : Disk) : Obj × Disk × Bool :=
  let o' := stamp cfg (rename name o)
  if d.canWrite o'.file then (o', d.write o'.file o'.data, true) else (o', d, false)

/-- `load` (settings.cpp:102-127): the object, the disk, and whether it returned. -/
def load (cfg : Cfg) (name : Str) (o : Obj) (d : Disk) : Obj × Disk × Bool :=
  let o' := rename name o
  if o'.file = [] then (o', d, false)
  else match d.files o'.file with
    | some (some t) => let r := loadKids cfg t.kids o'; (r.1, d, r.2)
    | some none => (o', d, false)
    | none => save cfg [] (reset o') d

/-- The constructor (settings.cpp:14-19); there is no object when it throws. -/
def create (cfg : Cfg) (name : Str) (d : Disk) : Option Obj × Disk :=
  let r := load cfg name ⟨.empty, [], noVersion⟩ d
  (if r.2.2 then some r.1 else none, r.2.1)

/-- What can be done with the object (settings.h:22, 34, 37, 42). -/
inductive Op where
  | set (id : Str) (v : PropNode)
  | load (name : Str)
  | save (name : Str)
  | reset

/-- One call; an exception leaves the object and the disk as they then are. -/
def step (cfg : Cfg) : Op → Obj × Disk → Obj × Disk
  | .set id v, (o, d) => ({ o with data := (setStep cfg o.data id v).1 }, d)
  | .load name, (o, d) => let r := load cfg name o d; (r.1, r.2.1)
  | .save name, (o, d) => let r := save cfg name o d; (r.1, r.2.1)
  | .reset, (o, d) => (reset o, d)

/-- A history of calls. -/
def run (cfg : Cfg) (ops : List Op) (w : Obj × Disk) : Obj × Disk := ops.foldl (fun w op => step cfg op w) w

end SetDisk
end Xo
