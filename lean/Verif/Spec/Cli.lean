import Verif.Spec.Config
import Verif.Model.Cli

/-! # How a command line is meant

A command line is a sequence of options, with the names of the test cases in one piece somewhere between them.
Every option says something about a setting, or which command is to be run. -/

namespace Verif.Spec
open Verif.Py Verif.Model

/-- Options that are written alone: their name, the setting and its value. -/
def switches : List (Str × Str × CVal) :=
  [("-i".toList, "interactive".toList, .bool true),
   ("-I".toList, "always_interactive".toList, .bool true),
   ("-v".toList, "verbose".toList, .bool true),
   ("-L".toList, "print_logs".toList, .bool true),
   ("-f".toList, "fail_fast".toList, .bool true),
   ("-c".toList, "continue".toList, .bool true),
   ("-r".toList, "refresh_sources".toList, .bool true),
   ("-u".toList, "update".toList, .bool true),
   ("-a".toList, "accept".toList, .bool true),
   ("-s".toList, "complete_snapshots".toList, .bool true),
   ("-S".toList, "refresh_snapshots".toList, .bool true),
   ("--cov".toList, "coverage".toList, .bool true),
   ("-p".toList, "parallel".toList, .bool true),
   ("-p1".toList, "parallel".toList, .int 1),
   ("-p2".toList, "parallel".toList, .int 2),
   ("-p3".toList, "parallel".toList, .int 3),
   ("-p4".toList, "parallel".toList, .int 4),
   ("-p6".toList, "parallel".toList, .int 6),
   ("-p8".toList, "parallel".toList, .int 8),
   ("-p16".toList, "parallel".toList, .str "16".toList)]

/-- Options that are commands, and the command. -/
def commands : List (Str × Str) :=
  [("-l".toList, "-l".toList),
   ("-w".toList, "--review".toList),
   ("--review".toList, "--review".toList),
   ("--forget".toList, "--forget".toList),
   ("--print".toList, "--print".toList),
   ("--path".toList, "--path".toList),
   ("--view".toList, "--view".toList),
   ("--garbage".toList, "--garbage".toList),
   ("--clean".toList, "--clean".toList),
   ("--config".toList, "--config".toList),
   ("--setup".toList, "--setup".toList)]

/-- Options with a text as argument, and the setting. -/
def tools : List (Str × Str) :=
  [("-md-viewer".toList, "md_viewer".toList),
   ("-diff-tool".toList, "diff_tool".toList)]

/-- The names of all options. -/
def optionNames : List Str :=
  switches.map (·.1) ++ commands.map (·.1) ++ tools.map (·.1) ++
    ["--parallel-count".toList, "-h".toList, "--help".toList]

/-- An option with or without argument says something about a setting; the command is treated like one. -/
inductive Sets (N : Numbers) : Str → Option Str → Str → CVal → Prop
  | switch (name key : Str) (v : CVal) : (name, key, v) ∈ switches → Sets N name none key v
  | command (name c : Str) : (name, c) ∈ commands → Sets N name none "command".toList (.str c)
  | tool (name key x : Str) : (name, key) ∈ tools → Sets N name (some x) key (.str x)
  | count (x : Str) (n : Int) : N.int x = some n →
      Sets N "--parallel-count".toList (some x) "parallel".toList (.int n)

/-- The word is the name of an option, or a beginning that no other option has. -/
def NamesOption (w name : Str) : Prop :=
  name ∈ optionNames ∧ w <+: name ∧ (w = name ∨ ∀ other ∈ optionNames, w <+: other → other = name)

/-- The text begins like an option. -/
def LooksLikeOption (x : Str) : Prop :=
  ∃ name ∈ optionNames, x <+: name ∨
    (∃ w y, x = w ++ '=' :: y ∧ (w = name ∨ "--".toList <+: w ∧ w <+: name)) ∨
    (name.length = 2 ∧ name <+: x)

/-- The text is not taken for an option: it does not begin with a dash, or it is one, or it is a negative number
or has a space and does not begin like an option. -/
def PlainText (N : Numbers) (x : Str) : Prop :=
  x.head? ≠ some '-' ∨ x = "-".toList ∨ (¬ LooksLikeOption x ∧ (N.negative x = true ∨ ' ' ∈ x))

/-- What is said by options of one letter. -/
inductive Letters (N : Numbers) : List Char → List (Str × CVal) → Prop
  | nil : Letters N [] []
  | cons (c : Char) (cs : List Char) (key : Str) (v : CVal) (uses : List (Str × CVal)) :
      Sets N ['-', c] none key v → Letters N cs uses → Letters N (c :: cs) ((key, v) :: uses)

/-- The strings that make up an option (or a group of options), and what is said. -/
inductive Word (N : Numbers) : List Str → List (Str × CVal) → Prop
  | alone (w name key : Str) (v : CVal) : NamesOption w name → Sets N name none key v → Word N [w] [(key, v)]
  | separate (w name x key : Str) (v : CVal) : NamesOption w name → Sets N name (some x) key v → PlainText N x →
      Word N [w, x] [(key, v)]
  | equals (w name x key : Str) (v : CVal) : NamesOption w name → (w = name ∨ "--".toList <+: w) →
      Sets N name (some x) key v → Word N [w ++ '=' :: x] [(key, v)]
  | letters (cs : List Char) (uses : List (Str × CVal)) : 2 ≤ cs.length →
      Letters N cs uses → Word N ['-' :: cs] uses

/-- Options one after the other. -/
inductive Words (N : Numbers) : List Str → List (Str × CVal) → Prop
  | nil : Words N [] []
  | cons (ws args : List Str) (us uses : List (Str × CVal)) : Word N ws us → Words N args uses →
      Words N (ws ++ args) (us ++ uses)

/-- How a command line is read: what is said by the options, and the names of test cases if there are any. They
may be after `--`, and then need not be plain texts. -/
inductive Reads (N : Numbers) (choices : List Str) : List Str → List (Str × CVal) → Option (List Str) → Prop
  | options (args : List Str) (uses : List (Str × CVal)) : Words N args uses → Reads N choices args uses none
  | names (before names after : List Str) (us uses : List (Str × CVal)) :
      Words N before us → names ≠ [] → (∀ x ∈ names, PlainText N x ∧ x ∈ choices) → Words N after uses →
      Reads N choices (before ++ names ++ after) (us ++ uses) (some names)
  | dashes (before plain others : List Str) (uses : List (Str × CVal)) :
      Words N before uses → (∀ x ∈ plain, PlainText N x) → (∀ x ∈ plain ++ others, x ∈ choices) →
      plain ++ others ≠ [] → Reads N choices (before ++ plain ++ "--".toList :: others) uses (some (plain ++ others))
  | dashesOnly (before : List Str) (uses : List (Str × CVal)) : Words N before uses →
      Reads N choices (before ++ ["--".toList]) uses none

/-- The last use of the setting has the value. -/
def Finally (uses : List (Str × CVal)) (key : Str) (v : CVal) : Prop :=
  LastSays (fun use k v => use = (k, v)) uses key v

/-- The value counts as given: it is not zero, and not empty. -/
def Given (v : CVal) : Prop := v ≠ .bool false ∧ v ≠ .int 0 ∧ v ≠ .str []

end Verif.Spec
