/-
The tool that prints the settings of a namespace: tools/namespace-dump/namespace-dump.c.
-/
import Verif.Model.Node
import Verif.Model.Wire
namespace Zdb

/-- How the tool ends. -/
inductive DumpEnd where
  /-- too few arguments, lines 11-14 -/
  | usage
  /-- `ns->name` with `ns` null, line 41 -/
  | crash
  /-- the settings are printed, lines 40-46 -/
  | report (text : Bytes)
deriving DecidableEq

/-- One `printf` with a label and a value. -/
def dumpLine (label : String) (v : Bytes) : Bytes := Wire.chars label ++ v ++ [10]

/-- Lines 40-46.  `public` and `worm` are what is left of the flags of the descriptor by the masks 1 and 2
    (libzdb/namespace.c:139-140, libzdb/namespace.h:15-16), so worm mode is printed as 2.  `mb` is how `printf` writes
    the size in megabytes, which is not modelled. -/
def dumpText (mb : Nat → Bytes) (c : NsConf) : Bytes :=
  Wire.chars "[+] ----------------------------------------\n" ++
  (dumpLine "[+] name        : " c.name ++
  (dumpLine "[+] password    : " (c.password.getD (Wire.chars "<no password set>")) ++
  (dumpLine "[+] public flag : " (decBytes (if c.isPublic then 1 else 0)) ++
  (dumpLine "[+] mode worm   : " (decBytes (if c.worm then 2 else 0)) ++
  (dumpLine "[+] maximum size: " (decBytes c.maxsize ++ Wire.chars " bytes (" ++ mb c.maxsize ++ Wire.chars " MB)") ++
  Wire.chars "[+] -----------------------------------------\n")))))

/-- The tool on the namespaces of a stopped process: `args` are the arguments behind the name of the program, the first one is
    the directory of the server.  A name which is not the one of a namespace has no directory, its descriptor cannot be opened
    (libzdb/namespace.c:102-114) and `namespace_load_light` returns null (libzdb/namespace.c:265-269); names which are
    paths are not modelled.  What is printed before the settings is left out.  The descriptor may be written by
    `namespace_descriptor_load`, see `loadDesc`. -/
def dumpMain (mb : Nat → Bytes) (n : Node) (args : List Bytes) : DumpEnd × Node :=
  match args with
  | _ :: name :: _ =>
    match (n.slots.filterMap id).find? (fun r => r.conf.name == name) with
    | none => (.crash, n)
    | some r =>
      match loadDesc name r.desc with
      | none => (.crash, n)
      | some (c, desc) =>
        (.report (dumpText mb c),
         { n with slots := n.slots.map (Option.map fun x => if x.conf.name = name then { x with desc := desc } else x) })
  | _ => (.usage, n)

end Zdb
