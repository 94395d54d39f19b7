/-
Which blocks of memory a server should have: stated over the variables that hold them.
-/
import Verif.Model.Heap
namespace Zdb.Heap

/-- The blocks of an argument. -/
def Arg.blocks (a : Arg) : List Nat := a.obj :: a.buf.toList

/-- The blocks of the replies that wait. -/
def respBlocks (q : List Resp) : List Nat := q.flatMap fun r => [r.node, r.buf]

/-- The blocks of the request of a client: `argv` and the arguments it still counts. -/
def Client.reqBlocks (c : Client) : List Nat := c.argv.toList ++ (c.args.take c.argc).flatMap Arg.blocks

/-- The blocks of a client. -/
def Client.blocks (c : Client) : List Nat :=
  [c.self, c.buf, c.req] ++ c.nonce.toList ++ c.reqBlocks ++ respBlocks c.resp

/-- The blocks of the map of files of a sequential namespace. -/
def seqBlocks : Option (Nat × Nat) → List Nat
  | none => []
  | some (h, m) => [h, m]

/-- The blocks of a namespace. -/
def Space.blocks (sp : Space) : List Nat :=
  [sp.self, sp.name, sp.ipath, sp.dpath] ++ sp.pass.toList ++
    ([sp.iroot, sp.ifile, sp.dirty] ++ seqBlocks sp.seq ++ [sp.droot, sp.dfile])

/-- The blocks of the process itself. -/
def Srv.globals (s : Srv) : List Nat := [s.clist, s.nsroot, s.nslist, s.trans, s.reuse] ++ s.branches.toList

/-- All blocks that a variable of the server holds, each as often as one does. -/
def Srv.blocks (s : Srv) : List Nat :=
  s.globals ++ s.clients.flatMap Client.blocks ++ s.spaces.flatMap Space.blocks

/-- The server from its start. -/
def serve (es : List Ev) : Prog Srv := do
  let s ← start
  runEvs es s

/-- The server from its start to its end. -/
def life (es : List Ev) : Prog Unit := do
  let s ← start
  let s ← runEvs es s
  stop s

end Zdb.Heap
