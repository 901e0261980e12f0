import Verif.Model.Json

/-!
# `save_folded` and `load_folded`

The file system maps names to archives; an archive is the list of its members in order.  What `np.savez` writes for one array
and `np.load` reads back is not modelled: a member holds the array itself.  Extra data is opaque (`E`): numeric arrays, which
`np.load` reads without `allow_pickle`.
-/

namespace Paragami

namespace Files

/-- One member of an archive. -/
inductive Item (E : Type) where
  | flat (x : NDArray Flt)
  | json (t : PyVal)
  | extra (e : E)

/-- The members of an archive by name. -/
abbrev Archive (E : Type) := List (String × Item E)

/-- The files by name. -/
abbrev FS (E : Type) := String → Option (Archive E)

variable {E : Type}

/-- `np.savez` on a string: `if not file.endswith('.npz'): file = file + '.npz'`. -/
def storedName (file : String) : String := if ".npz".toList.isSuffixOf file.toList then file else file ++ ".npz"

/-- `np.savez(file, **kw)`: each array goes to the member `key + '.npy'`. -/
def savez (fs : FS E) (file : String) (kw : List (String × Item E)) : FS E :=
  fun n => if n = storedName file then some (kw.map fun m => (m.1 ++ ".npy", m.2)) else fs n

/-- pattern_containers.py:82-102 `save_folded(file, folded_val, pattern, **argk)`; a name clash with one of the other parameters,
or with the two keys passed to `np.savez`, raises `TypeError`. -/
noncomputable def saveFolded (fs : FS E) (file : String) (v : Val Flt) (p : Pattern) (argk : List (String × E)) :
    Except Err Unit × FS E :=
  if (argk.map (·.1)).any (fun k => ["file", "folded_val", "pattern"].contains k) then (.error .typeError, fs)
  else
    match p.flatten v (some false) none with
    | .error e => (.error e, fs)
    | .ok x =>
      if (argk.map (·.1)).any (fun k => ["flat_val", "pattern_json"].contains k) then (.error .typeError, fs)
      else (.ok (), savez fs file (("flat_val", .flat x) :: ("pattern_json", .json p.toJson) ::
        argk.map fun a => (a.1, .extra a.2)))

/-- The name without a trailing `.npy` (`NpzFile.files`). -/
def stripNpy (n : String) : String :=
  if ".npy".toList.isSuffixOf n.toList then String.ofList (n.toList.take (n.toList.length - 4)) else n

/-- `data[key]` for a loaded archive (`NpzFile.__getitem__`): the member of exactly this name if there is one, else the member
`key + '.npy'`. -/
def getItem (a : Archive E) (key : String) : Except Err (Item E) :=
  if (a.map (·.1)).contains key then
    match a.lookup key with
    | some i => .ok i
    | none => .error (.keyError key)
  else if (a.map fun m => stripNpy m.1).contains key then
    match a.lookup (key ++ ".npy") with
    | some i => .ok i
    | none => .error (.keyError key)
  else .error (.keyError key)

/-- pattern_containers.py:104-128 `load_folded(file)`; the file name is used as it is. -/
noncomputable def loadFolded (reg : Registry) (user : Nat → PyVal → Except Err Pattern) (fs : FS E) (file : String) :
    Except Err (Val Flt × Pattern × Archive E) := do
  match fs file with
  | none => .error .fileNotFoundError
  | some data => do
    let t ← getItem data "pattern_json"
    match t with
    | .json t => do
      let p ← Json.getPatternFromJson reg user t
      let x ← getItem data "flat_val"
      match x with
      | .flat x => do
        let v ← p.fold x (some false) none
        return (v, p, data)
      | _ => .error .unmodelled
    | _ => .error .unmodelled

/-- Other things that happen to the file system. -/
inductive Op (E : Type) where
  | save (file : String) (v : Val Flt) (p : Pattern) (argk : List (String × E))
  | write (name : String) (a : Archive E)
  | delete (name : String)

/-- The effect of one operation. -/
noncomputable def Op.apply (fs : FS E) : Op E → FS E
  | save file v p argk => (saveFolded fs file v p argk).2
  | write name a => fun n => if n = name then some a else fs n
  | delete name => fun n => if n = name then none else fs n

end Files

end Paragami
