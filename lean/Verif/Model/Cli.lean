import Verif.Base
import Verif.Model.Text
import Verif.Model.Armor

/-!
# `cli/modules/module.cpp` and `cli/main.cpp`: command lines

`std::map` is modelled by its lookup function, and the maps a module is constructed from by the initializer list: of two entries with the
same key, the first one counts. Help texts are not modelled.
-/
namespace OpenPGP.Cli
open OpenPGP

/-- The arguments a module's function gets (module.h:56-60): values and flags by name. -/
structure Parsed where
  args : Bytes → Option Bytes
  flags : Bytes → Option Bool

/-- What one run of a command does: the value returned and the octets written to standard output. -/
structure Ran where
  code : Int
  out : Bytes
  deriving DecidableEq, Repr

/-- `class Module` (module.h:40-76). `run` may throw. Names of options come with their default values. -/
structure Module where
  name : Bytes
  positional : List Bytes
  opts : List (Bytes × Bytes)
  flags : List (Bytes × Bool)
  run : Parsed → Out Ran

namespace Module

/-- `std::isspace` in the C locale. -/
def isSpace (c : UInt8) : Bool := c == 32 || (9 ≤ c && c ≤ 13)

/-- `Module::check_names_ws` (module.cpp:5-35): whether it returns. -/
def namesOk (m : Module) : Bool :=
  !m.name.isEmpty && !m.name.any isSpace && m.opts.all (fun o => !o.1.any isSpace) && m.flags.all (fun f => !f.1.any isSpace)

/-- `Module::check_duplicate` (module.cpp:37-67): whether it returns. Sorting and comparing neighbours finds exactly the duplicates. -/
def noDuplicates (m : Module) : Bool :=
  decide m.positional.Nodup && m.positional.all (fun p => (m.opts.lookup p).isNone) && m.positional.all (fun p => (m.flags.lookup p).isNone) &&
    m.flags.all (fun f => (m.opts.lookup f.1).isNone)

/-- The constructor (module.cpp:115-130): whether it returns. -/
def constructs (m : Module) : Bool := m.namesOk && m.noDuplicates

/-- The double dash. -/
def dashes : Bytes := [45, 45]

/-- Assignment to an element of a map. -/
def assign {α : Type} (f : Bytes → Option α) (k : Bytes) (v : α) : Bytes → Option α := fun x => if x = k then some v else f x

/-- The loop of `Module::parse` (module.cpp:70-116). `rest` are the positional arguments that have no value yet (`positional` from `pos`
on). The result is the name `parse` returns if something is missing. -/
def parseLoop (m : Module) : (isPositional : Bool) → (rest : List Bytes) → Parsed → List Bytes → Except Bytes Parsed
  | _, [], p, [] => .ok p
  | _, n :: _, _, [] => .error n
  | isPos, rest, p, w :: ws =>
    if w = dashes then parseLoop m true rest p ws
    else if !isPos && (m.opts.lookup w).isSome then
      match ws with
      | [] => .error w
      | v :: ws => parseLoop m isPos rest { p with args := assign p.args w v } ws
    else if !isPos && (m.flags.lookup w).isSome then
      parseLoop m isPos rest { p with flags := assign p.flags w (!(m.flags.lookup w).getD false) } ws
    else match rest with
      | [] => parseLoop m isPos [] p ws
      | n :: rest => parseLoop m isPos rest { p with args := assign p.args n w } ws
  termination_by _ _ _ ws => ws.length

/-- The default values (module.cpp:171-181). -/
def defaults (m : Module) : Parsed := ⟨fun k => m.opts.lookup k, fun k => m.flags.lookup k⟩

/-- `Module::parse` on the defaults. -/
def parse (m : Module) (argv : List Bytes) : Except Bytes Parsed := m.parseLoop false m.positional m.defaults argv

/-- `Module::operator()` (module.cpp:173-193): the value returned. What it prints in case of failure is left out. -/
def call (m : Module) (argv : List Bytes) : Out Ran :=
  match m.parse argv with
  | .error _ => .ok ⟨-1, []⟩
  | .ok p => do
    let r ← m.run p
    if r.code = -1 then return ⟨-1, r.out⟩ else return ⟨0, r.out⟩

end Module

/-- The last module of a name (main.cpp:84-91): `mapping` keeps the last index. -/
def find (ordered : List Module) (name : Bytes) : Option Module := ordered.reverse.find? fun m => m.name = name

/-- `main` (main.cpp:57-106) on the arguments behind the program's name. Help is printed for no arguments and for a first argument that
begins with `help`; printing help (and compiling a regular expression for it) is left out. -/
def main (ordered : List Module) : List Bytes → Out Ran
  | [] => .ok ⟨0, []⟩
  | cmd :: argv =>
    if cmd.take 4 = ascii "help" then .ok ⟨0, []⟩
    else match find ordered cmd with
      | none => .ok ⟨-1, []⟩
      | some m => m.call argv

end OpenPGP.Cli
