import Verif.Py.Path

/-! # Model of `TestCaseRun.rel_path` (`booktest/testcaserun.py:177-187`) -/

namespace Verif.Model
open Verif.Py

/-- `TestCaseRun.rel_path` (testcaserun.py:177-187), in the given working directory. -/
def relPath (cwd outBaseDir file : Str) : Option Str :=
  let absFile := abspath cwd file
  let absOut := abspath cwd outBaseDir
  if absFile.take absOut.length = absOut then some (absFile.drop (absOut.length + 1)) else none

end Verif.Model
