import Verif.Py.Str
import Verif.Model.Exc
/-!
# The subcommands (cmdline_utils.py:23-34, cmdline.py:566-592)

`MyGroup` is a `click.Group` which keeps also the order in which commands were added. A plugin may add further ones: cmdline.py:587 calls the hook
`add_subcommands` (hookspec.py:8) with the group. `click` looks up the command to run in the dictionary, and asks for `list_commands` to write the
help text.
-/
namespace Verif
namespace Cmd

/-- `MyGroup`, cmdline_utils.py:23: the dictionary `commands` of `click.Group`, and the attribute `_cmdlist`, which is not there before the first
`add_command`. `C` are the commands. -/
structure Group (C : Type) where
  commands : List (Str × C)
  cmdlist : Option (List Str)

/-- a `MyGroup` as made by `click.command(cls=MyGroup)`, cmdline.py:27 -/
def Group.new {C : Type} : Group C := ⟨[], none⟩

/-- `d[k] = v` for a dictionary: an existing key keeps its place -/
def dictSet {C : Type} (d : List (Str × C)) (k : Str) (v : C) : List (Str × C) :=
  match d with
  | [] => [(k, v)]
  | (k', v') :: d => if k' = k then (k, v) :: d else (k', v') :: dictSet d k v

/-- `d.get(k)` for a dictionary -/
def dictGet {C : Type} (d : List (Str × C)) (k : Str) : Option C :=
  match d with
  | [] => none
  | (k', v') :: d => if k' = k then some v' else dictGet d k

/-- `MyGroup.add_command`, cmdline_utils.py:25-28. A command is given as its name and what it does. -/
def Group.addCommand {C : Type} (g : Group C) (cmd : Str × C) : Group C :=
  { commands := dictSet g.commands cmd.1 cmd.2, cmdlist := some (g.cmdlist.getD [] ++ [cmd.1]) }

/-- `MyGroup.list_commands`, cmdline_utils.py:30-33; that of `click.Group` is `sorted(self.commands)` -/
def Group.listCommands {C : Type} (g : Group C) : Except Exc (List Str) :=
  let commands := Py.sorted (g.commands.map (·.1))
  match g.cmdlist with
  | none => .error .attributeError
  | some l => if Py.sorted commands = Py.sorted l then .ok l else .error .assertionError

/-- `click.Group.get_command`, which `click` uses to find the command to run -/
def Group.getCommand {C : Type} (g : Group C) (name : Str) : Option C := dictGet g.commands name

/-- several calls of `add_command` -/
def Group.addAll {C : Type} (g : Group C) (cmds : List (Str × C)) : Group C := cmds.foldl Group.addCommand g

/-- the commands as added, cmdline.py:566-582, by the names given to `mycommand` (cmdline.py:41, 107, 141, 163, 177, 190, 207, 222, 252, 284, 358,
437, 465, 476, bot.py:27) or taken from the function (cmdline.py:404, 486) -/
def ownCommands : List Str :=
  [str!"status", str!"add-account", str!"mod-account", str!"del-account", str!"find-account", str!"process-incoming", str!"scandir-incoming",
   str!"import-public-key", str!"peerstate", str!"recommend", str!"process-outgoing", str!"sendmail", str!"make-header", str!"export-public-key",
   str!"export-secret-key", str!"bot-reply", str!"destroy-all"]

/-- `muacrypt_main` after cmdline.py:566-592: its own commands, then those added by plugins. `what` is what the own commands do. -/
def mainGroup {C : Type} (what : Str → C) (plugins : List (Str × C)) : Group C :=
  (Group.new.addAll (ownCommands.map fun n => (n, what n))).addAll plugins

end Cmd
end Verif
