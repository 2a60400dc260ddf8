import Verif.Spec.Asking

/-! # A run without questions that is reviewed afterwards (C134) -/

namespace Verif.Spec
open Verif.Py Verif.Model

/-- A run that asks nothing, accepts nothing by itself, and leaves out no test. -/
structure PlainRun (cfg : Config) : Prop where
  asks : NotAsking cfg
  update : cfg.update = false
  accept : cfg.accept = false
  fast : cfg.failFast = false
  cont : cfg.cont = false

/-- The result of a test, if it ends. -/
def resultOf (P : Project) (snap : Option Str) (n : Str) : Option Result :=
  (runTest (P.env snap) (P.tests n).body).map (verdict (P.env snap))

end Verif.Spec
