import Verif.Spec.BywordsAgain

/-!
# Specification of running the bywords program again and again
-/

namespace Sang.Spec

/-- The program run several times on the same file, with a use of bywords each time, until a run fails: each run opens
the file, uses bywords on what it holds, and saves it. -/
def runEach {D : Type} (C : Codec D) (prog : BywordsUse → D → D × Res Unit) (sif : Str) :
    List BywordsUse → Disk → Disk × Res Unit
  | [], fs => (fs, .ok ())
  | u :: us, fs => match runProgram C (prog u) sif sif fs with
    | (fs', .error e) => (fs', .error e)
    | (fs', .ok ()) => runEach C prog sif us fs'

/-- The disk at each point where one of these runs could die. -/
def eachStates {D : Type} (C : Codec D) (prog : BywordsUse → D → D × Res Unit) (sif : Str) :
    List BywordsUse → Disk → List Disk
  | [], fs => [fs]
  | u :: us, fs => runStates C (prog u) sif sif fs ++ match runProgram C (prog u) sif sif fs with
    | (_, .error _) => []
    | (fs', .ok ()) => eachStates C prog sif us fs'

/-- The disk before the first of these runs, and after each of them. -/
def doneStates {D : Type} (C : Codec D) (prog : BywordsUse → D → D × Res Unit) (sif : Str) (us : List BywordsUse)
    (fs : Disk) : List Disk :=
  us.inits.map fun l => (runEach C prog sif l fs).1

end Sang.Spec
