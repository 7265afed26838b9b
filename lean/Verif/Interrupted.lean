import Verif.Replacer

/-!
# Rewriting all the template files, interrupted
-/

namespace Sang

/-- The disks that a process which dies during `handle_all_files()` may leave behind, given the names that `glob` finds, in
order. `sangfroid/template/replacer.py:21-29`. A disk without room for the temporary file leaves one of these, too:
`write` raises before the rename. -/
def handleFilesStates (fields : RFields) (seen : List Str) (d : TextDisk) : List Str → List TextDisk
  | [] => [d]
  | p :: r => handleStates fields seen d p ++ match handleFile fields seen d p with
    | (_, _, .error _) => []
    | (seen, d, .ok ()) => handleFilesStates fields seen d r

end Sang
