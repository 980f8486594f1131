import Verif.Prelude.ODict

/-!
# Model of the attributes written by `MapWriter._final` (`/repo/zoidberg/zoidberg.py:725-748`)
-/

namespace Zoidberg

/-- The names tried for the old value of attribute `k`: `old_k`, `old0_k`, `old1_k`, ..
(zoidberg.py:741-745). -/
def oldName (k : String) : ℕ → String
  | 0 => "old_" ++ k
  | j + 1 => "old" ++ toString j ++ "_" ++ k

/-- The loop `while oldattr in oldattrs` (zoidberg.py:743-745), at most `fuel` tests. -/
def freshName (old : List String) (k : String) : ℕ → ℕ → Option String
  | 0, _ => none
  | fuel + 1, j => if oldName k j ∈ old then freshName old k fuel (j + 1) else some (oldName k j)

/-- The attributes that are always written (zoidberg.py:729-735): title, name and version
of the software, and the id twice. -/
def newAttrs {A : Type} (title software version id : A) : ODict A :=
  [("title", title), ("software_name", software), ("software_version", version), ("id", id),
    ("grid_id", id)]

/-- The attributes to be written with `update=True` (zoidberg.py:736-746).  `oldattrs` is
listed once; `none` stands for a loop that does not end. -/
def updateAttrs {A : Type} (attrs file : ODict A) : Option (ODict A) :=
  attrs.keys.foldlM (fun a k =>
    match file.get? k with
    | none => some a
    | some v => (freshName file.keys k (file.keys.length + 1) 0).map fun n => a.set n v) attrs

/-- The sequence of attributes written by `_final(update)` (zoidberg.py:729-748). -/
def finalAttrs {A : Type} (update : Bool) (attrs file : ODict A) : Option (ODict A) :=
  if update then updateAttrs attrs file else some attrs

/-- The attributes of the file after the first `n` of these have been written
(`f.write_file_attribute(*kv)`, zoidberg.py:747-748). -/
def writeAttrs {A : Type} (attrs file : ODict A) (n : ℕ) : ODict A :=
  (List.take n attrs).foldl (fun f p => f.set p.1 p.2) file

/-- The attributes of the file after `_final(update)` (zoidberg.py:729-748). -/
def finalFile {A : Type} (update : Bool) (attrs file : ODict A) : Option (ODict A) :=
  (finalAttrs update attrs file).map fun a => writeAttrs a file a.length

end Zoidberg
