import Verif.Base

/-!
# What a command line says

A command line is a row of items, optionally followed by a double dash and words that are taken as they are.
-/
namespace OpenPGP.Cli

/-- One item of a command line. -/
inductive Item where
  /-- an option and its value -/
  | opt (name value : Bytes)
  /-- a flag -/
  | flag (name : Bytes)
  /-- a positional argument -/
  | word (value : Bytes)
  deriving DecidableEq

/-- How an item is typed. -/
def Item.spell : Item → List Bytes
  | .opt n v => [n, v]
  | .flag n => [n]
  | .word v => [v]

/-- The items make sense for a command with these options and flags: a word is neither of them and no double dash. -/
def Item.fits (opts : List (Bytes × Bytes)) (flags : List (Bytes × Bool)) : Item → Prop
  | .opt n _ => n ∈ opts.map Prod.fst ∧ n ≠ [45, 45]
  | .flag n => n ∈ flags.map Prod.fst ∧ n ≠ [45, 45] ∧ n ∉ opts.map Prod.fst
  | .word v => v ∉ opts.map Prod.fst ∧ v ∉ flags.map Prod.fst ∧ v ≠ [45, 45]

/-- A command line: items, and words behind a double dash if there is one. -/
structure Line where
  items : List Item
  verbatim : Option (List Bytes)

/-- How a command line is typed. -/
def Line.spell (l : Line) : List Bytes :=
  l.items.flatMap Item.spell ++ (match l.verbatim with | none => [] | some ws => [45, 45] :: ws)

/-- The positional arguments in order. -/
def Line.words (l : Line) : List Bytes :=
  l.items.filterMap (fun | .word v => some v | _ => none) ++ l.verbatim.getD []

/-- The values given to an option, in order. -/
def Line.values (l : Line) (name : Bytes) : List Bytes := l.items.filterMap fun | .opt n v => if n = name then some v else none | _ => none

/-- The flag is given. -/
abbrev Line.has (l : Line) (name : Bytes) : Prop := Item.flag name ∈ l.items

/-- Every item makes sense. -/
def Line.fits (opts : List (Bytes × Bytes)) (flags : List (Bytes × Bool)) (l : Line) : Prop := ∀ i ∈ l.items, i.fits opts flags

end OpenPGP.Cli
