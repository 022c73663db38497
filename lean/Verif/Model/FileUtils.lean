import Verif.Model.World
/-!
# Model of src/library/base/file_utils.cpp
-/
namespace Licensecc

/-- `filter_existing_files`, src/library/base/file_utils.cpp:20-35. -/
def filterExistingFiles (w : World) (extra : Bytes) : Registry → List Bytes → Outcome (Registry × List Bytes)
  | r, [] => .ok (r, [])
  | r, p :: ps => do
    let r ← r.addEvent .specified (some p) (some extra)
    if w.probe p then do
      let r ← r.addEvent .found (some p) (some extra)
      let (r, fs) ← filterExistingFiles w extra r ps
      return (r, p :: fs)
    else do
      let r ← r.addEvent .fileNotFound (some p) (some extra)
      filterExistingFiles w extra r ps

/-- `get_file_contents`, src/library/base/file_utils.cpp:37-51: the first `max` bytes.  Simplification: the file does not
    shrink between `tellg` and `read`. -/
def getFileContents (w : World) (path : Bytes) (max : Nat) : Outcome Bytes :=
  match w.read path with
  | some c => .ok (c.take max)
  | none => .throw .runtimeError

/-- `string::find_last_of`. -/
def findLast (p : UInt8 → Bool) : Bytes → Option Nat
  | [] => none
  | c :: s => match findLast p s with
    | some i => some (i + 1)
    | none => if p c then some 0 else none

/-- `remove_extension`, src/library/base/file_utils.cpp:53-70. -/
def removeExtension (path : Bytes) : Bytes :=
  if path = b!"." ∨ path = b!".." then path
  else match findLast (· == 46) path with
    | none => path
    | some dot => match findLast (fun c => c == 92 || c == 47) path with
      | none => if dot = 0 then path else path.take dot
      | some sep => if sep ≥ dot + 1 then path else path.take dot

end Licensecc
