import Verif.Model.Config

/-! # Who says what about a setting -/

namespace Verif.Spec
open Verif.Py Verif.Model

/-- The value a text stands for: `1` and `0` are booleans. -/
inductive Means : Str → CVal → Prop
  | one : Means "1".toList (.bool true)
  | zero : Means "0".toList (.bool false)
  | other (s : Str) : s ≠ "1".toList → s ≠ "0".toList → Means s (.str s)

/-- A line of a file that counts: it is neither blank nor a comment (`#` in the first column). -/
def Counts (u : Unicode) (line : Str) : Prop := line.head? ≠ some '#' ∧ ∃ c ∈ line, u.isSpace c = false

/-- The line is `key=value` up to surrounding whitespace. -/
def LineSays (u : Unicode) (line key : Str) (v : CVal) : Prop :=
  Counts u line ∧ ∃ value, strip u line = key ++ "=".toList ++ value ∧ '=' ∉ key ∧ Means value v

/-- The environment variable is `BOOKTEST_KEY` with the key in capitals. -/
def VarSays (u : Unicode) (var : Str × Str) (key : Str) (v : CVal) : Prop :=
  ∃ name, var.1 = "BOOKTEST_".toList ++ name ∧ key = lower u name ∧ Means var.2 v

/-- The command line option sets the key. -/
inductive FlagSays (a : Args) : Str → CVal → Prop
  | i : a.i = true → FlagSays a "interactive".toList (.bool true)
  | I : a.I = true → FlagSays a "always_interactive".toList (.bool true)
  | v : a.v = true → FlagSays a "verbose".toList (.bool true)
  | L : a.L = true → FlagSays a "print_logs".toList (.bool true)
  | f : a.f = true → FlagSays a "fail_fast".toList (.bool true)
  | c : a.c = true → FlagSays a "continue".toList (.bool true)
  | r : a.r = true → FlagSays a "refresh_sources".toList (.bool true)
  | u : a.u = true → FlagSays a "update".toList (.bool true)
  | a : a.a = true → FlagSays a "accept".toList (.bool true)
  | p (x : CVal) : a.p = x → x ≠ .bool false → x ≠ .int 0 → x ≠ .str [] → FlagSays a "parallel".toList x
  | s : a.s = true → FlagSays a "complete_snapshots".toList (.bool true)
  | S : a.S = true → FlagSays a "refresh_snapshots".toList (.bool true)
  | cov : a.cov = true → FlagSays a "coverage".toList (.bool true)
  | mdViewer (x : Str) : a.mdViewer = some x → x ≠ [] → FlagSays a "md_viewer".toList (.str x)
  | diffTool (x : Str) : a.diffTool = some x → x ≠ [] → FlagSays a "diff_tool".toList (.str x)

/-- The last one of `xs` that says something about the key says `v`. -/
def LastSays {α : Type} (says : α → Str → CVal → Prop) (xs : List α) (key : Str) (v : CVal) : Prop :=
  ∃ pre x post, xs = pre ++ x :: post ∧ says x key v ∧ ∀ y ∈ post, ∀ v', ¬ says y key v'

/-- None of `xs` says anything about the key. -/
def Silent {α : Type} (says : α → Str → CVal → Prop) (xs : List α) (key : Str) : Prop :=
  ∀ x ∈ xs, ∀ v, ¬ says x key v

/-- The lines of a file, which has none if it does not exist. -/
def linesOf (w : ConfigWorld) (file : Str) : List Str :=
  match w.files file with
  | none => []
  | some text => split '\n' (universalNewlines text)

/-- The value that a key ought to have: the first of the sources that says something decides. -/
inductive Chosen (u : Unicode) (w : ConfigWorld) (homeFile : Str) (extra : List (Str × CVal)) (a : Args) (key : Str) :
    Option CVal → Prop
  | flag (v : CVal) : FlagSays a key v → Chosen u w homeFile extra a key (some v)
  | extra (v : CVal) : (∀ v, ¬ FlagSays a key v) → (key, v) ∈ extra → Chosen u w homeFile extra a key (some v)
  | environ (v : CVal) : (∀ v, ¬ FlagSays a key v) → key ∉ extra.map (·.1) →
      LastSays (VarSays u) w.environ key v → Chosen u w homeFile extra a key (some v)
  | project (v : CVal) : (∀ v, ¬ FlagSays a key v) → key ∉ extra.map (·.1) → Silent (VarSays u) w.environ key →
      LastSays (LineSays u) (linesOf w ".booktest".toList) key v → Chosen u w homeFile extra a key (some v)
  | home (v : CVal) : (∀ v, ¬ FlagSays a key v) → key ∉ extra.map (·.1) → Silent (VarSays u) w.environ key →
      Silent (LineSays u) (linesOf w ".booktest".toList) key →
      LastSays (LineSays u) (linesOf w homeFile) key v → Chosen u w homeFile extra a key (some v)
  | nothing : (∀ v, ¬ FlagSays a key v) → key ∉ extra.map (·.1) → Silent (VarSays u) w.environ key →
      Silent (LineSays u) (linesOf w ".booktest".toList) key →
      Silent (LineSays u) (linesOf w homeFile) key → Chosen u w homeFile extra a key none

/-- A value that is on one line and does not end with whitespace. -/
def Readable (u : Unicode) (value : Str) : Prop :=
  '\n' ∉ value ∧ '\r' ∉ value ∧ ∀ c, value.getLast? = some c → u.isSpace c = false

end Verif.Spec
